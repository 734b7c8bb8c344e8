import Verif.Props.Examples
import Verif.Props.Dequant
import Verif.Props.QuantNeg
import Verif.Proofs.Order

/-!
# ADD mode, identity on codes, exact zero, monotonicity, accumulation, the fused call:
C10, C13, C32, C36 (dequantize half), C42, C43
-/

namespace Verif.Props
open Spec

section
variable {c : Ctx} {x : InBuf} {dtIn dtOut dt : DType} {n o : Nat} {scale τ : F32} {zp : ℤ} {mode : RoundMode} {op : ReduceOp} {m0 : Mem}

/-! ## C10 -/

/-- C10, float32 output.  ADD stores `old + value`, rounded to float32 — product and sum separately,
or both at once if the compiler contracted that sum (`plus`) — for every element, except the last
`n % 4` elements of a uint2 tensor (see `C10_false_uint2_tail`). -/
theorem C10_add_f32_partial (h : DArgs c.threads x dtIn .f32 n) (hr : Readable dtIn .f32 n x.size) (hz : ZpSub zp) :
    Always NoFault (dequantize c x (bytes dtIn.bits n) dtIn o (4 * n) .f32 scale zp .add) (span o (4 * n)) m0
      (fun m => ∀ i, i < n → (dtIn = .uint2 → i < n / 4 * 4) →
        ∃ b, c.fuse.Has b ∧ f32At m (o + 4 * i) = plus b (f32At m0 (o + 4 * i)) scale zp (code dtIn.bits x.data 0 i)) := by
  refine (dequantize_vals (ft := .f32) (op := .add) h hr hz).mono (fun _ h => h) (fun m hm i hi ht => ?_)
  have := hm.1 i hi
  unfold DqOut at this
  simp only at this
  rw [if_neg (fun hc => by have := ht hc.1; omega)] at this
  obtain ⟨b, hb, this⟩ := this
  exact ⟨b, hb, by rw [this, dqF_eq (dt := dtIn) hz (code_lt256 h.inQuant _ _ _)]; rfl⟩

/-- `C10_add_f32_partial` applied to a concrete case. -/
example := C10_add_f32_partial (c := Ex.c1) (x := Ex.codes) (dtIn := .uint4) (n := 139) (o := 1000) (scale := Ex.tenth) (zp := 7) (m0 := Ex.old)
    (h := by wit) (hr := by wit) (hz := by wit)

/-- A context whose kernels contract all sums or none. -/
def Uniform (c : Ctx) (b : Bool) : Prop := c.fuse = ⟨b, b, b⟩

instance (c : Ctx) (b : Bool) : Decidable (Uniform c b) := by unfold Uniform; infer_instance

theorem Uniform.has {b b' : Bool} (h : Uniform c b) (h' : c.fuse.Has b') : b' = b := by
  unfold Uniform at h
  unfold Fuse.Has at h'
  rw [h] at h'
  simpa using h'

/-- C10, float32 output, a build that contracts all sums (GCC with `-mfma`) or none
(`-ffp-contract=off`, SSE4.2): one formula for every element. -/
theorem C10_add_f32_uniform_partial {b : Bool} (hu : Uniform c b) (h : DArgs c.threads x dtIn .f32 n) (hr : Readable dtIn .f32 n x.size) (hz : ZpSub zp) :
    Always NoFault (dequantize c x (bytes dtIn.bits n) dtIn o (4 * n) .f32 scale zp .add) (span o (4 * n)) m0
      (fun m => ∀ i, i < n → (dtIn = .uint2 → i < n / 4 * 4) →
        f32At m (o + 4 * i) = plus b (f32At m0 (o + 4 * i)) scale zp (code dtIn.bits x.data 0 i)) :=
  (C10_add_f32_partial h hr hz).mono (fun _ h => h) (fun m hm i hi ht => by
    obtain ⟨b', hb', e⟩ := hm i hi ht
    rw [e, hu.has hb'])

/-- `C10_add_f32_uniform_partial` applied to a concrete case. -/
example := C10_add_f32_uniform_partial (c := Ex.c1) (x := Ex.codes) (dtIn := .uint4) (n := 139) (o := 1000) (scale := Ex.tenth) (zp := 7)
    (m0 := Ex.old) (b := false) (hu := rfl) (h := by wit) (hr := by wit) (hz := by wit)

example : Uniform ⟨.avx2, 4, .all⟩ true ∧ Uniform ⟨.sse42, 4, .none⟩ false := by decide

/-- C10 is false: in ADD mode every one of the last `n % 4` elements of a uint2 → f32 call is
*overwritten* — the old value is lost — on every kernel, thread count and schedule. -/
theorem C10_false_uint2_tail (h : DArgs c.threads x .uint2 .f32 n) (hr : Readable .uint2 .f32 n x.size) (hz : ZpSub zp) :
    Always NoFault (dequantize c x (bytes 2 n) .uint2 o (4 * n) .f32 scale zp .add) (span o (4 * n)) m0
      (fun m => ∀ i, n / 4 * 4 ≤ i → i < n → f32At m (o + 4 * i) = dequant scale zp (code 2 x.data 0 i)) := by
  refine (dequantize_vals (ft := .f32) (op := .add) h hr hz).mono (fun _ h => h) (fun m hm i ht hi => ?_)
  have := hm.1 i hi
  unfold DqOut at this
  simp only [true_and] at this
  rw [if_pos ht] at this
  obtain ⟨b, _, this⟩ := this
  rw [this, dqF_eq (dt := .uint2) hz (code_lt256 h.inQuant _ _ _)]
  rfl

/-- `C10_false_uint2_tail` applied to a concrete case. -/
example := C10_false_uint2_tail (c := Ex.c1) (x := Ex.codes) (n := 279) (o := 1000) (scale := Ex.tenth) (zp := 2) (m0 := Ex.old) (h := by wit)
    (hr := fun _ _ _ h => absurd h (by decide)) (hz := by wit)

/-- Old contents of an output buffer of floats 1.0. -/
def ones : Mem := fun a => if a % 4 = 3 then 0x3f else if a % 4 = 2 then 0x80 else 0

/-- A witness: two uint2 codes 1, 2 with scale 0.5 and zero point 0 added to 1.0, 1.0 give 0.5, 1.0
instead of 1.5, 2.0. -/
theorem C10_false_witness :
    Always NoFault (dequantize ⟨.portable, 1, .none⟩ (Ex.buf [0x09]) 1 .uint2 64 8 .f32 Ex.half 0 .add) (span 64 8) ones
      (fun m => f32At m 64 = Ex.half ∧ ∀ b, f32At m 64 ≠ plus b (f32At ones 64) Ex.half 0 1) := by
  have h : DArgs 1 (Ex.buf [0x09]) .uint2 .f32 2 := ⟨rfl, rfl, by decide, by decide, by norm_num, by norm_num⟩
  refine (C10_false_uint2_tail (c := ⟨.portable, 1, .none⟩) (n := 2) (zp := 0) (scale := Ex.half) h (by unfold Readable; decide) (by decide)).mono (fun _ h => h) (fun m hm => ?_)
  have := hm 0 (by norm_num) (by norm_num)
  have e : dequant Ex.half 0 (code 2 (Ex.buf [0x09]).data 0 0) = Ex.half := by decide +kernel
  rw [e] at this
  have h0 : f32At m 64 = Ex.half := this
  rw [h0]
  exact ⟨rfl, by decide +kernel⟩

/-- C10, bf16 output: the sum is rounded to bf16.  Scalar kernels round the value to bf16 first
(`d`), then add and round; AVX-512 kernels add the unrounded value in float32 (`s`, where the uint8
product and sum may be contracted) and round once to bf16 (and may flush a denormal sum on
AVX-512-BF16). -/
theorem C10_add_bf16 (h : DArgs c.threads x dtIn .bf16 n) (hz : ZpSub zp) (h2 : dtIn = .uint2 → |zp| ≤ 2 ^ 24) :
    Always NoFault (dequantize c x (bytes dtIn.bits n) dtIn o (2 * n) .bf16 scale zp .add) (span o (2 * n)) m0
      (fun m => ∀ i, i < n →
        (∃ d, IsBf16Of (dequant scale zp (code dtIn.bits x.data 0 i)) d ∧
          IsBf16Of (Flt.add (bf16At m0 (o + 2 * i)) (Flt.ofBits f32 (65536 * d))) (u16At m (o + 2 * i))) ∨
        ((c.isa = .avx512f ∨ c.isa = .avx512bf16) ∧ ∃ s,
          ((dtIn = .uint8 ∧ s = plus c.fuse.vec (bf16At m0 (o + 2 * i)) scale zp (code dtIn.bits x.data 0 i)) ∨
            (dtIn ≠ .uint8 ∧ s = Flt.add (fmaDequant scale zp (code dtIn.bits x.data 0 i)) (bf16At m0 (o + 2 * i)))) ∧
          (IsBf16Of s (u16At m (o + 2 * i)) ∨
            (c.isa = .avx512bf16 ∧ |s.toRat| < 1 / 2 ^ 126 ∧ u16At m (o + 2 * i) % 32768 = 0)))) := by
  refine (dequantize_vals (ft := .bf16) (op := .add) h (fun _ h => by cases h) hz).mono (fun _ h => h) (fun m hm i hi' => ?_)
  rcases hm.1 i hi' with g | ⟨gi, g⟩
  · left
    refine ⟨f32ToBf16 (dqB dtIn scale zp (code dtIn.bits x.data 0 i)), ?_, ?_⟩
    · rw [← dqB_eq (dt := dtIn) hz (code_lt256 h.inQuant _ _ _) h2]
      refine isBf16Of_f32ToBf16 ?_
      rw [dqB_eq (dt := dtIn) hz (code_lt256 h.inQuant _ _ _) h2]; exact valid_mul _ _
    · rw [g]
      show IsBf16Of _ (f32ToBf16 (Flt.add (bf16ToF32 _) (bf16ToF32 _)))
      rw [bf16ToF32_spec, bf16ToF32_word f32ToBf16_lt]
      exact isBf16Of_f32ToBf16 (valid_add _ _)
  · right
    refine ⟨gi, ?_⟩
    have hv : vopB .add (dqV c.fuse.vec dtIn scale zp (code dtIn.bits x.data 0 i)) (u16At m0 (o + 2 * i)) =
        (dqV c.fuse.vec dtIn scale zp (code dtIn.bits x.data 0 i)).plus (bf16At m0 (o + 2 * i)) := by
      show Term.plus _ (bf16ToF32 _) = _; rw [bf16ToF32_spec]
    rw [hv] at g
    have hs := cvtB_spec (isa := c.isa) (v := (dqV c.fuse.vec dtIn scale zp (code dtIn.bits x.data 0 i)).plus (bf16At m0 (o + 2 * i)))
      ((dqV_valid _ _ _ _ _).2 _) (dqV_nan _ _ _ _ _ _)
    rw [← g] at hs
    have hs := hs.imp (fun h => h) (fun h => (⟨h.1, h.2.2.1, h.2.2.2⟩ : _ ∧ _ ∧ _))
    by_cases h8 : dtIn = .uint8
    · subst h8
      have e : (dqV c.fuse.vec .uint8 scale zp (code DType.uint8.bits x.data 0 i)).plus (bf16At m0 (o + 2 * i)) =
          plus c.fuse.vec (bf16At m0 (o + 2 * i)) scale zp (code DType.uint8.bits x.data 0 i) := by
        unfold dqV; rw [wrap32_zpSub hz, dqMulT_eq hz (code_lt256 h.inQuant _ _ _)]; rfl
      rw [e] at hs
      exact ⟨_, Or.inl ⟨rfl, rfl⟩, hs⟩
    · have e : (dqV c.fuse.vec dtIn scale zp (code dtIn.bits x.data 0 i)).plus (bf16At m0 (o + 2 * i)) =
          Flt.add (fmaDequant scale zp (code dtIn.bits x.data 0 i)) (bf16At m0 (o + 2 * i)) := by
        unfold dqV; rw [wrap32_zpSub hz]
        cases dtIn <;> first | exact absurd rfl h8 | rfl
      rw [e] at hs
      exact ⟨_, Or.inr ⟨h8, rfl⟩, hs⟩

/-- `C10_add_bf16` applied to a concrete case. -/
example := C10_add_bf16 (c := Ex.c1) (x := Ex.codes) (dtIn := .uint4) (n := 139) (o := 1000) (scale := Ex.tenth) (zp := 7) (m0 := Ex.old) (h := by wit)
    (hz := by wit) (h2 := by wit)

/-! ## C13 -/

theorem f32At_shift (m : Mem) (o a : Nat) : f32At (fun b => m (o + b)) a = f32At m (o + a) := by
  unfold f32At; simp only [Nat.add_assoc]

theorem code_shift (bits : Nat) (m : Mem) (o i : Nat) : code bits (fun b => m (o + b)) 0 i = code bits m o i := by
  unfold code; simp only [Nat.zero_add]

/-- C13. Dequantizing to float32 (any kernel, threads, schedule) and quantizing the result with
nearest rounding (any other kernel, threads, schedule) restores every code.  "Normal range" must be
read as `[2^-126, 2^119]`: above it `255 * scale` overflows, see `C13_false_huge_scale`. -/
theorem C13_requantize_identity {c' : Ctx} {o' : Nat} {m0' : Mem} (h : DArgs c.threads x dt .f32 n) (hr : Readable dt .f32 n x.size)
    (h' : Sizes n c'.threads) (hf : scale.isFin = true) (h1 : 1 / 2 ^ 126 ≤ scale.toRat) (h2 : scale.toRat ≤ 2 ^ 119)
    (hz0 : 0 ≤ zp) (hz1 : zp ≤ 2 ^ dt.bits - 1) :
    Always NoFault (dequantize c x (bytes dt.bits n) dt o (4 * n) .f32 scale zp .set) (span o (4 * n)) m0 (fun m =>
      Always NoFault (quantize c' ⟨4 * n, fun a => m (o + a)⟩ .f32 o' (bytes dt.bits n) dt scale zp .nearest τ) (span o' (bytes dt.bits n)) m0' (fun m' =>
        ∀ i, i < n → code dt.bits m' o' i = code dt.bits x.data 0 i)) := by
  have hb : (2:ℤ) ^ dt.bits ≤ 256 := by
    have := h.inQuant
    cases dt <;> simp only [DType.isQuant, Bool.false_eq_true] at this <;> simp only [DType.bits] <;> norm_num
  have hzs : ZpSub zp := by unfold ZpSub; norm_num; omega
  refine (C09_dequantize_f32_formula h hr hzs).mono (fun _ h => h) (fun m hm => ?_)
  have hk : ∀ i, |((code dt.bits x.data 0 i : ℕ) : ℤ) - zp| ≤ 255 := fun i => by
    have := code_lt256 h.inQuant x.data 0 i; rw [abs_le]; omega
  have key : ∀ i, i < n → (scaled (elem .f32 (fun a => m (o + a)) 0 i) scale).isFin = true ∧
      |(scaled (elem .f32 (fun a => m (o + a)) 0 i) scale).toRat - (((code dt.bits x.data 0 i : ℕ) : ℤ) - zp : ℤ)| ≤ 1 / 2 ^ 13 := by
    intro i hi
    have e : elem .f32 (fun a => m (o + a)) 0 i = dequant scale zp (code dt.bits x.data 0 i) := by
      show f32At (fun a => m (o + a)) (0 + 4 * i) = _
      rw [f32At_shift, Nat.zero_add, hm i hi]
    rw [e]
    exact rescaled_near (hk i) hf h1 h2
  have hrha : ∀ i, i < n → rha (scaled (elem .f32 (fun a => m (o + a)) 0 i) scale).toRat = ((code dt.bits x.data 0 i : ℕ) : ℤ) - zp := fun i hi =>
    rha_near (lt_of_le_of_lt (key i hi).2 (by norm_num))
  have hfits : ∀ i, i < n → Fits 32 (scaled (elem .f32 (fun a => m (o + a)) 0 i) scale) zp := fun i hi => by
    have := abs_le.mp (hk i)
    refine ⟨(key i hi).1, ?_, ?_⟩ <;> rw [hrha i hi]
    · norm_num; omega
    · have := code_lt256 h.inQuant x.data 0 i
      norm_num; omega
  refine (C07_vector_nearest (c := c') ⟨rfl, h.inQuant, rfl, h'⟩ (by rw [abs_of_nonneg hz0]; norm_num; omega) hfits).mono (fun _ h => h) (fun m' hm' i hi => ?_)
  rcases hm' i hi with g | ⟨g, _⟩
  · rw [hrha i hi, sub_add_cancel, sat_id (by positivity) ?_] at g
    · exact_mod_cast g
    · have := code_le (dt := dt) x.data 0 i
      have h1 : 1 ≤ 2 ^ dt.bits := Nat.one_le_two_pow
      have : ((code dt.bits x.data 0 i : ℕ) : ℤ) ≤ ((2 ^ dt.bits - 1 : ℕ) : ℤ) := by exact_mod_cast this
      rw [Nat.cast_sub h1] at this
      exact_mod_cast this
  · exfalso
    obtain ⟨z, hz⟩ : ∃ z : ℤ, z = ((code dt.bits x.data 0 i : ℕ) : ℤ) - zp := ⟨_, rfl⟩
    have k := (key i hi).2
    rw [← hz] at k
    set p := (scaled (elem .f32 (fun a => m (o + a)) 0 i) scale).toRat
    have hp1 : (1/4 : ℚ) < |p| := by rw [g]; unfold predHalf; norm_num
    have hp2 : |p| < 3/4 := by rw [g]; unfold predHalf; norm_num
    have hp3 : |p| + 1/2^13 < 1 := by rw [g]; unfold predHalf; norm_num
    have hp4 : 1/2^13 < |p| := by rw [g]; unfold predHalf; norm_num
    have hz1 : |(z:ℚ)| < 1 := by
      have : |(z:ℚ)| ≤ |p| + |p - z| := by
        have := abs_sub p (p - z); simpa using this
      linarith
    have hz0 : z = 0 := by
      have : |z| < 1 := by exact_mod_cast hz1
      exact Int.abs_lt_one_iff.mp this
    rw [hz0] at k
    simp only [Int.cast_zero, sub_zero] at k
    linarith

/-- `C13_requantize_identity` applied to a concrete case. -/
example := C13_requantize_identity (c := Ex.c1) (x := Ex.codes) (dt := .uint4) (n := 139) (o := 1000) (scale := Ex.tenth) (τ := Ex.quarter) (zp := 7)
    (m0 := Ex.old) (c' := Ex.c2) (o' := 3000) (m0' := Ex.old) (h := by wit) (hr := by wit) (h' := by wit) (hf := by wit) (h1 := by wit) (h2 := by wit)
    (hz0 := by wit) (hz1 := by wit)

/-- The hypotheses are met: the nine codes of three bytes, scale 0.1, zero point 3. -/
example : DArgs 3 (Ex.buf [0x1B, 0xE4, 0x02]) .uint2 .f32 9 ∧ Readable .uint2 .f32 9 (Ex.buf [0x1B, 0xE4, 0x02]).size ∧
    1 / 2 ^ 126 ≤ Ex.tenth.toRat ∧ Ex.tenth.toRat ≤ 2 ^ 119 ∧ Ex.tenth.isFin = true :=
  ⟨⟨rfl, rfl, by decide, by decide, by norm_num, by norm_num⟩, by unfold Readable; decide, by decide +kernel⟩

/-- 2^126 as a float. -/
def huge : F32 := ⟨false, 0x7e800000⟩

/-- C13 is false for normal scales near the top of the range: with scale 2^126, zero point 0, uint8
code 255 becomes infinity (bytes 0, 0, 128, 127), and quantizing that back gives code 0 on SSE4.2
and is undefined behaviour on the portable kernel. -/
theorem C13_false_huge_scale :
    huge.isFin = true ∧ 1 / 2 ^ 126 ≤ huge.toRat ∧
    Always NoFault (dequantize ⟨.sse42, 1, .none⟩ (Ex.buf (List.replicate 16 255)) 16 .uint8 64 64 .f32 huge 0 .set) (span 64 64) Ex.old
      (fun m => (List.range 64).map (fun j => m (64 + j)) = (List.replicate 16 [0, 0, 128, 127]).flatten) ∧
    Always NoFault (quantize ⟨.sse42, 1, .none⟩ (Ex.buf (List.replicate 16 [0, 0, 128, 127]).flatten) .f32 64 16 .uint8 huge 0 .nearest f0) (span 64 16) Ex.old
      (fun m => m 64 = 0) ∧
    Ex.result (quantize ⟨.portable, 1, .none⟩ (Ex.buf (List.replicate 16 [0, 0, 128, 127]).flatten) .f32 64 16 .uint8 huge 0 .nearest f0) 64 16 Ex.old = .error .ub := by
  refine ⟨by decide +kernel, by decide +kernel, ?_, ?_, by decide +kernel⟩
  · have h : DArgs 1 (Ex.buf (List.replicate 16 255)) .uint8 .f32 16 := ⟨rfl, rfl, by decide, by decide, by norm_num, by norm_num⟩
    exact dequantize_result (c := ⟨.sse42, 1, .none⟩) (n := 16) (o := 64) (scale := huge) (zp := 0) (op := .set) (m0 := Ex.old) h (by unfold Readable; decide) (by decide +kernel)
  · refine (quantize_result (dtOut := .uint8) (n := 16) (l := List.replicate 16 0) (c := ⟨.sse42, 1, .none⟩) ⟨rfl, rfl, by decide, sz 16 1⟩ (by decide +kernel)).mono (fun _ h => h) (fun m hm => ?_)
    exact (List.cons.inj hm).1

/-! ## C36, dequantize half -/

theorem dequant_zero {q : Nat} (hs : scale.isFin = true) (hq : (q:ℤ) = zp) : (dequant scale zp q).isZero = true := by
  rw [isZero_iff]
  unfold dequant
  rw [hq, sub_self]
  obtain ⟨e, f⟩ := ofInt_exact (f := f32) (z := 0) (by simp)
  rw [mul_toRat f hs, e, Int.cast_zero, zero_mul, flr_zero]

/-- C36 (dequantize to float32): a code equal to the zero point becomes exactly zero, on every kernel. -/
theorem C36_dequantize_zero_f32 (h : DArgs c.threads x dtIn .f32 n) (hr : Readable dtIn .f32 n x.size) (hz : ZpSub zp) (hs : scale.isFin = true) :
    Always NoFault (dequantize c x (bytes dtIn.bits n) dtIn o (4 * n) .f32 scale zp .set) (span o (4 * n)) m0
      (fun m => ∀ i, i < n → (code dtIn.bits x.data 0 i : ℤ) = zp → (f32At m (o + 4 * i)).isZero = true) := by
  refine (C09_dequantize_f32_formula h hr hz).mono (fun _ h => h) (fun m hm i hi hq => ?_)
  rw [hm i hi]; exact dequant_zero hs hq

/-- `C36_dequantize_zero_f32` applied to a concrete case. -/
example := C36_dequantize_zero_f32 (c := Ex.c1) (x := Ex.codes) (dtIn := .uint4) (n := 139) (o := 1000) (scale := Ex.tenth) (zp := 7) (m0 := Ex.old)
    (h := by wit) (hr := by wit) (hz := by wit) (hs := by wit)

theorem isBf16Of_zero {v : F32} {w : Nat} (hv : v.isZero = true) (h : IsBf16Of v w) : w % 32768 = 0 := by
  have hm : v.mag = 0 := by simpa [Flt.isZero] using hv
  obtain ⟨s, k⟩ := v
  simp only at hm
  subst hm
  unfold IsBf16Of at h
  have hn : ∀ s, (⟨s, 0⟩ : F32).isNaN = false := by decide
  rw [hn, if_neg (by simp)] at h
  rw [h]
  have : ∀ s, (Flt.cvt bf16 (⟨s, 0⟩ : F32)).toBits % 32768 = 0 := by decide +kernel
  exact this s

/-- C36 (dequantize to bf16): exactly zero on every kernel without AVX-512, and for uint8 everywhere. -/
theorem C36_dequantize_zero_bf16_partial (h : DArgs c.threads x dtIn .bf16 n) (hz : ZpSub zp) (h2 : dtIn = .uint2 → |zp| ≤ 2 ^ 24) (hs : scale.isFin = true)
    (hi : dtIn = .uint8 ∨ (c.isa ≠ .avx512f ∧ c.isa ≠ .avx512bf16)) :
    Always NoFault (dequantize c x (bytes dtIn.bits n) dtIn o (2 * n) .bf16 scale zp .set) (span o (2 * n)) m0
      (fun m => ∀ i, i < n → (code dtIn.bits x.data 0 i : ℤ) = zp → u16At m (o + 2 * i) % 32768 = 0) := by
  refine (C09_dequantize_bf16_any_kernel_partial h hz h2).mono (fun _ h => h) (fun m hm i hi' hq => ?_)
  obtain ⟨v, hv, hw⟩ := hm i hi'
  have e : v = dequant scale zp (code dtIn.bits x.data 0 i) := by
    rcases hv with hv | ⟨g1, g2, _⟩
    · exact hv
    · rcases hi with hi | hi
      · exact absurd hi g2
      · rcases g1 with g1 | g1
        · exact absurd g1 hi.1
        · exact absurd g1 hi.2
  rcases hw with hw | hw
  · exact isBf16Of_zero (by rw [e]; exact dequant_zero hs hq) hw
  · exact hw.2.2.2

/-- `C36_dequantize_zero_bf16_partial` applied to a concrete case. -/
example := C36_dequantize_zero_bf16_partial (c := Ex.c3) (x := Ex.codes) (dtIn := .uint4) (n := 139) (o := 1000) (scale := Ex.tenth) (zp := 7)
    (m0 := Ex.old) (h := by wit) (hz := by wit) (h2 := by wit) (hs := by wit) (hi := by wit)

theorem fma_toRat {a b c : F32} (ha : a.isFin = true) (hb : b.isFin = true) (hc : c.isFin = true) :
    (Flt.fma a b c).toRat = flr f32 (a.toRat * b.toRat + c.toRat) := by
  obtain ⟨a1, a2⟩ := isFin_not_nan ha
  obtain ⟨b1, b2⟩ := isFin_not_nan hb
  obtain ⟨c1, c2⟩ := isFin_not_nan hc
  unfold Flt.fma
  rw [a1, b1, c1, a2, b2, c2, if_neg (by simp), if_neg (by simp), if_neg (by simp), ofRat_flr]

/-- The AVX-512 uint4/uint2 value is within `scale / 2^18` of `(code - zero_point) * scale`. -/
theorem fmaDequant_near {q : Nat} (hq : q ≤ 15) (hz0 : 0 ≤ zp) (hz1 : zp ≤ 15) (hf : scale.isFin = true) (h1 : 1 / 2 ^ 126 ≤ scale.toRat)
    (h2 : scale.toRat ≤ 2 ^ 119) :
    (fmaDequant scale zp q).isFin = true ∧ |(fmaDequant scale zp q).toRat - (((q:ℤ) - zp : ℤ) : ℚ) * scale.toRat| ≤ scale.toRat / 2 ^ 18 := by
  have hs : 0 < scale.toRat := lt_of_lt_of_le (by positivity) h1
  obtain ⟨eq, fq⟩ := ofInt_exact (f := f32) (z := (q:ℤ)) (by rw [abs_of_nonneg (by positivity)]; show (q:ℤ) ≤ 2 ^ 24; norm_num; omega)
  obtain ⟨ez, fz⟩ := ofInt_exact (f := f32) (z := zp) (by rw [abs_of_nonneg hz0]; show zp ≤ 2 ^ 24; norm_num; omega)
  have hzq : (0:ℚ) ≤ zp := by exact_mod_cast hz0
  have hzq1 : (zp:ℚ) ≤ 15 := by exact_mod_cast hz1
  have hq0 : (0:ℚ) ≤ ((q:ℤ):ℚ) := by positivity
  have hq1 : ((q:ℤ):ℚ) ≤ 15 := by exact_mod_cast hq
  have hu : ∀ K : ℚ, 1 ≤ K → (1:ℚ) / 2 ^ (f32.unit + 1) ≤ K * scale.toRat / 2 ^ 24 := by
    intro K hK
    rw [unit_f32, le_div_iff₀ (by positivity)]
    calc (1:ℚ) / 2 ^ (149 + 1) * 2 ^ 24 = 1 * (1 / 2 ^ 126) := by norm_num
      _ ≤ K * scale.toRat := mul_le_mul hK h1 (by positivity) (by linarith)
  -- the bias
  set b := Flt.mul (Flt.negate (Flt.ofInt f32 zp)) scale with hb
  have eb : b.toRat = flr f32 (-(zp:ℚ) * scale.toRat) := by
    rw [hb, mul_toRat (by rw [negate_isFin]; exact fz) hf, negate_toRat, ez]
  have habs1 : |-(zp:ℚ) * scale.toRat| ≤ 15 * scale.toRat := by
    rw [abs_mul, abs_neg, abs_of_nonneg hzq, abs_of_pos hs]
    exact mul_le_mul_of_nonneg_right hzq1 hs.le
  have hbig : 64 * scale.toRat ≤ 2 ^ 127 := by
    calc 64 * scale.toRat ≤ 64 * 2 ^ 119 := by apply mul_le_mul_of_nonneg_left h2; norm_num
      _ ≤ _ := by norm_num
  have hfl1 : fl f32 |-(zp:ℚ) * scale.toRat| < 2 ^ f32.emax := by
    apply fl_fin (abs_nonneg _); rw [emax_f32]; exact habs1.trans (le_trans (by linarith) hbig)
  have fb : b.isFin = true := isFin_of_abs (by rw [eb, abs_flr]; exact hfl1)
  have err1 : |b.toRat - (-(zp:ℚ) * scale.toRat)| ≤ 15 * scale.toRat / 2 ^ 24 := by
    rw [eb]
    refine (flr_err hfl1).trans (max_le (hu 15 (by norm_num)) ?_)
    exact div_le_div_of_nonneg_right habs1 (by positivity)
  -- the sum
  set t := ((q:ℤ):ℚ) * scale.toRat + b.toRat with ht
  have et : (fmaDequant scale zp q).toRat = flr f32 t := by
    unfold fmaDequant
    rw [fma_toRat fq hf fb, eq]
  have herr : |t - (((q:ℤ) - zp : ℤ) : ℚ) * scale.toRat| ≤ 15 * scale.toRat / 2 ^ 24 := by
    have : t - (((q:ℤ) - zp : ℤ) : ℚ) * scale.toRat = b.toRat - (-(zp:ℚ) * scale.toRat) := by rw [ht]; push_cast; ring
    rw [this]; exact err1
  have habst : |t| ≤ 31 * scale.toRat := by
    have hd : |(((q:ℤ) - zp : ℤ) : ℚ) * scale.toRat| ≤ 15 * scale.toRat := by
      rw [abs_mul, abs_of_pos hs]
      apply mul_le_mul_of_nonneg_right _ hs.le
      rw [abs_le]; push_cast; push_cast at hq0 hq1; constructor <;> linarith
    have h3 : |t| ≤ |t - (((q:ℤ) - zp : ℤ) : ℚ) * scale.toRat| + |(((q:ℤ) - zp : ℤ) : ℚ) * scale.toRat| := by
      have := abs_add_le (t - (((q:ℤ) - zp : ℤ) : ℚ) * scale.toRat) ((((q:ℤ) - zp : ℤ) : ℚ) * scale.toRat)
      rwa [sub_add_cancel] at this
    have h4 : 15 * scale.toRat / 2 ^ 24 ≤ scale.toRat := by
      rw [div_le_iff₀ (by positivity)]
      have : scale.toRat * 15 ≤ scale.toRat * 2 ^ 24 := mul_le_mul_of_nonneg_left (by norm_num) hs.le
      linarith
    linarith
  have hfl2 : fl f32 |t| < 2 ^ f32.emax := by
    apply fl_fin (abs_nonneg _); rw [emax_f32]; exact habst.trans (le_trans (by linarith) hbig)
  refine ⟨isFin_of_abs (by rw [et, abs_flr]; exact hfl2), ?_⟩
  have err2 : |flr f32 t - t| ≤ 31 * scale.toRat / 2 ^ 24 := by
    refine (flr_err hfl2).trans (max_le (hu 31 (by norm_num)) ?_)
    exact div_le_div_of_nonneg_right habst (by positivity)
  rw [et]
  have h5 : |flr f32 t - (((q:ℤ) - zp : ℤ) : ℚ) * scale.toRat| ≤ |flr f32 t - t| + |t - (((q:ℤ) - zp : ℤ) : ℚ) * scale.toRat| := by
    have := abs_add_le (flr f32 t - t) (t - (((q:ℤ) - zp : ℤ) : ℚ) * scale.toRat)
    rwa [sub_add_sub_cancel] at this
  have h6 : 31 * scale.toRat / 2 ^ 24 + 15 * scale.toRat / 2 ^ 24 ≤ scale.toRat / 2 ^ 18 := by
    have : scale.toRat / 2 ^ 18 = 64 * scale.toRat / 2 ^ 24 := by ring
    rw [this, ← add_div]
    apply div_le_div_of_nonneg_right _ (by positivity)
    linarith
  linarith

/-- C09/C36 on AVX-512 uint4/uint2 → bf16: what is stored is the bf16 nearest to (or a flushed
denormal of) a float within `scale / 2^18` of the exact `(code - zero_point) * scale`. -/
theorem C09_dequantize_bf16_avx512_error (h : DArgs c.threads x dtIn .bf16 n) (hd : dtIn = .uint4 ∨ dtIn = .uint2) (hz0 : 0 ≤ zp) (hz1 : zp ≤ 15)
    (hf : scale.isFin = true) (h1 : 1 / 2 ^ 126 ≤ scale.toRat) (h2 : scale.toRat ≤ 2 ^ 119) :
    Always NoFault (dequantize c x (bytes dtIn.bits n) dtIn o (2 * n) .bf16 scale zp .set) (span o (2 * n)) m0
      (fun m => ∀ i, i < n → ∃ v : F32, v.isFin = true ∧
        |v.toRat - (((code dtIn.bits x.data 0 i : ℕ) : ℤ) - zp : ℤ) * scale.toRat| ≤ scale.toRat / 2 ^ 18 ∧
        (IsBf16Of v (u16At m (o + 2 * i)) ∨ (|v.toRat| < 1 / 2 ^ 126 ∧ u16At m (o + 2 * i) % 32768 = 0))) := by
  have hzs : ZpSub zp := by unfold ZpSub; norm_num; omega
  refine (C09_dequantize_bf16_any_kernel_partial h hzs (fun _ => by rw [abs_of_nonneg hz0]; norm_num; omega)).mono (fun _ h => h) (fun m hm i hi => ?_)
  obtain ⟨v, hv, hw⟩ := hm i hi
  have hq : code dtIn.bits x.data 0 i ≤ 15 := (code_le (dt := dtIn) x.data 0 i).trans (by rcases hd with rfl | rfl <;> decide)
  have hs : 0 < scale.toRat := lt_of_lt_of_le (by positivity) h1
  have hn : v.isFin = true ∧ |v.toRat - (((code dtIn.bits x.data 0 i : ℕ) : ℤ) - zp : ℤ) * scale.toRat| ≤ scale.toRat / 2 ^ 18 := by
    rcases hv with hv | ⟨_, _, hv⟩
    · rw [hv]
      have hk : |((code dtIn.bits x.data 0 i : ℕ) : ℤ) - zp| ≤ 255 := by rw [abs_le]; omega
      -- sharper than `dequant_near`: |k| ≤ 15
      obtain ⟨g1, _⟩ := dequant_near hk hf h1 h2
      refine ⟨g1, ?_⟩
      set k := ((code dtIn.bits x.data 0 i : ℕ) : ℤ) - zp with hkk
      obtain ⟨e1, f1⟩ := ofInt_exact (f := f32) (z := k) (hk.trans (by norm_num [f32]))
      have e : (dequant scale zp (code dtIn.bits x.data 0 i)).toRat = flr f32 (k * scale.toRat) := by
        unfold dequant; rw [mul_toRat f1 hf, e1]
      have hk15 : |(k:ℚ)| ≤ 15 := by
        have : |k| ≤ 15 := by rw [abs_le]; omega
        exact_mod_cast this
      have habs : |(k:ℚ) * scale.toRat| ≤ 15 * scale.toRat := by
        rw [abs_mul, abs_of_pos hs]; exact mul_le_mul_of_nonneg_right hk15 hs.le
      have hfl : fl f32 |(k:ℚ) * scale.toRat| < 2 ^ f32.emax := by
        apply fl_fin (abs_nonneg _)
        rw [emax_f32]
        calc _ ≤ 15 * scale.toRat := habs
          _ ≤ 15 * 2 ^ 119 := by apply mul_le_mul_of_nonneg_left h2; norm_num
          _ ≤ _ := by norm_num
      rw [e]
      refine (flr_err hfl).trans (max_le ?_ ?_)
      · rw [unit_f32, le_div_iff₀ (by positivity)]
        calc (1:ℚ) / 2 ^ (149 + 1) * 2 ^ 18 ≤ 1 / 2 ^ 126 := by norm_num
          _ ≤ _ := h1
      · calc |(k:ℚ) * scale.toRat| / 2 ^ (f32.mb + 1) ≤ 15 * scale.toRat / 2 ^ 24 := div_le_div_of_nonneg_right habs (by positivity)
          _ ≤ 64 * scale.toRat / 2 ^ 24 := by apply div_le_div_of_nonneg_right _ (by positivity); linarith
          _ = _ := by ring
    · rw [hv]; exact fmaDequant_near hq hz0 hz1 hf h1 h2
  refine ⟨v, hn.1, hn.2, ?_⟩
  rcases hw with hw | ⟨_, _, hw⟩
  · exact Or.inl hw
  · exact Or.inr hw

/-- `C09_dequantize_bf16_avx512_error` applied to a concrete case. -/
example := C09_dequantize_bf16_avx512_error (c := Ex.c1) (x := Ex.codes) (dtIn := .uint4) (n := 139) (o := 1000) (scale := Ex.tenth) (zp := 7)
    (m0 := Ex.old) (h := by wit) (hd := by wit) (hz0 := by wit) (hz1 := by wit) (hf := by wit) (h1 := by wit) (h2 := by wit)

/-- C36 (and C09) is false on AVX-512 for uint4 → bf16: 128 codes all equal to the zero point 3,
scale 0.1, dequantize to a nonzero word (0xB200, about -1.86e-9).  The same call on the portable
kernel gives zeros. -/
theorem C36_false_avx512_uint4_bf16 :
    Always NoFault (dequantize ⟨.avx512f, 1, .none⟩ (Ex.buf (List.replicate 64 0x33)) 64 .uint4 64 256 .bf16 Ex.tenth 3 .set) (span 64 256) Ex.old
      (fun m => u16At m 64 = 0xB200) ∧
    (∀ i, i < 128 → code 4 (Ex.buf (List.replicate 64 0x33)).data 0 i = 3) ∧
    (dequant Ex.tenth 3 3).isZero = true := by
  refine ⟨?_, by decide +kernel, by decide +kernel⟩
  have h : DArgs 1 (Ex.buf (List.replicate 64 0x33)) .uint4 .bf16 128 := ⟨rfl, rfl, by decide, by decide, by norm_num, by norm_num⟩
  refine (dequantize_result (c := ⟨.avx512f, 1, .none⟩) (n := 128) (o := 64) (scale := Ex.tenth) (zp := 3) (op := .set) (m0 := Ex.old)
    (l := (List.replicate 128 [0, 178]).flatten) h (by unfold Readable; decide) (by decide +kernel)).mono (fun _ h => h) (fun m hm => ?_)
  have h0 := congrArg (fun l => l.getD 0 0) hm
  have h1 := congrArg (fun l => l.getD 1 0) hm
  have h0 : m 64 = 0 := h0
  have h1 : m 65 = 178 := h1
  unfold u16At; rw [h0, h1]

/-! ## C42 -/

/-- C42. For a finite scale ≥ 0 the float32 outputs are ordered like the codes (never reversed, no
NaN), and lie between the values of the extreme codes. -/
theorem C42_dequantize_monotone (h : DArgs c.threads x dtIn .f32 n) (hr : Readable dtIn .f32 n x.size) (hz : ZpSub zp) (hs : scale.isFin = true)
    (h0 : 0 ≤ scale.toRat) :
    Always NoFault (dequantize c x (bytes dtIn.bits n) dtIn o (4 * n) .f32 scale zp .set) (span o (4 * n)) m0
      (fun m => (∀ i j, i < n → j < n → code dtIn.bits x.data 0 i ≤ code dtIn.bits x.data 0 j →
          Flt.ge (f32At m (o + 4 * j)) (f32At m (o + 4 * i)) = true) ∧
        (∀ i, i < n → Flt.ge (f32At m (o + 4 * i)) (dequant scale zp 0) = true ∧
          Flt.ge (dequant scale zp (2 ^ dtIn.bits - 1)) (f32At m (o + 4 * i)) = true)) := by
  have hb : 2 ^ dtIn.bits - 1 < 256 := by
    have := h.inQuant
    cases dtIn <;> simp only [DType.isQuant, Bool.false_eq_true] at this <;> decide
  have key : ∀ q r, q < 256 → r < 256 → q ≤ r → Flt.ge (dequant scale zp r) (dequant scale zp q) = true := by
    intro q r hq hr hqr
    have n1 := (dequant_toRat hs hz hq).2
    have n2 := (dequant_toRat hs hz hr).2
    unfold Flt.ge
    rw [n1, n2, if_neg (by simp), lt_iff n2 n1]
    simp only [Bool.not_eq_true', decide_eq_false_iff_not, not_lt]
    exact dequant_mono hs h0 hz hq hr hqr
  refine (C09_dequantize_f32_formula h hr hz).mono (fun _ h => h) (fun m hm => ⟨fun i j hi hj hij => ?_, fun i hi => ?_⟩)
  · rw [hm i hi, hm j hj]
    exact key _ _ (code_lt256 h.inQuant _ _ _) (code_lt256 h.inQuant _ _ _) hij
  · rw [hm i hi]
    exact ⟨key _ _ (by norm_num) (code_lt256 h.inQuant _ _ _) (Nat.zero_le _), key _ _ (code_lt256 h.inQuant _ _ _) hb (code_le _ _ _)⟩

/-- `C42_dequantize_monotone` applied to a concrete case. -/
example := C42_dequantize_monotone (c := Ex.c1) (x := Ex.codes) (dtIn := .uint4) (n := 139) (o := 1000) (scale := Ex.tenth) (zp := 7) (m0 := Ex.old)
    (h := by wit) (hr := by wit) (hz := by wit) (hs := by wit) (h0 := by wit)

/-! ## C43 -/

/-- A dequantize(ADD) call into a shared float32 buffer. -/
structure AddCall where
  c : Ctx
  x : InBuf
  dt : DType
  scale : F32
  zp : ℤ

/-- After every schedule of the first call, every schedule of the second on the memory it left, …:
`Q` holds of the final memory. -/
def AfterAll (n o : Nat) : List AddCall → Mem → (Mem → Prop) → Prop
  | [], m, Q => Q m
  | a :: l, m, Q => Always NoFault (dequantize a.c a.x (bytes a.dt.bits n) a.dt o (4 * n) .f32 a.scale a.zp .add) (span o (4 * n)) m
      (fun m' => AfterAll n o l m' Q)

theorem AfterAll.mono {n o : Nat} {l : List AddCall} {m : Mem} {Q Q' : Mem → Prop} (hQ : ∀ m, Q m → Q' m) (h : AfterAll n o l m Q) : AfterAll n o l m Q' := by
  induction l generalizing m with
  | nil => exact hQ _ h
  | cons a l ih => exact Always.mono h (fun _ h => h) (fun m' hm' => ih hm')

/-- `v` is the float32 sum, left to right, of `old` and the values the calls give to element `i`,
each addition rounded in one of the two ways (`plus`) the call's build uses. -/
def IsSum (i : Nat) : List AddCall → F32 → F32 → Prop
  | [], old, v => v = old
  | a :: l, old, v => ∃ b, a.c.fuse.Has b ∧ IsSum i l (plus b old a.scale a.zp (code a.dt.bits a.x.data 0 i)) v

/-- C43. Successive ADD calls — any number, each with its own context, dtype (not uint2), codes, scale and
zero point — leave in element `i` the float32 sum, left to right, of the old value and all values. -/
theorem C43_repeated_add (calls : List AddCall)
    (h : ∀ a ∈ calls, DArgs a.c.threads a.x a.dt .f32 n ∧ a.dt ≠ .uint2 ∧ ZpSub a.zp) :
    AfterAll n o calls m0 (fun m => ∀ i, i < n → IsSum i calls (f32At m0 (o + 4 * i)) (f32At m (o + 4 * i))) := by
  induction calls generalizing m0 with
  | nil => intro i _; rfl
  | cons a l ih =>
    obtain ⟨h1, h2, h3⟩ := h a List.mem_cons_self
    refine (C10_add_f32_partial h1 (fun e => absurd e h2) h3).mono (fun _ h => h) (fun m hm => ?_)
    refine (ih (m0 := m) (fun b hb => h b (List.mem_cons_of_mem _ hb))).mono (fun m' hm' i hi => ?_)
    obtain ⟨b, hb, e⟩ := hm i hi (fun e => absurd e h2)
    refine ⟨b, hb, ?_⟩
    rw [← e]; exact hm' i hi

/-- `C43_repeated_add` applied to a concrete case. -/
example := C43_repeated_add (n := 139) (o := 1000) (m0 := Ex.old)
    (calls := [⟨Ex.c1, Ex.codes, .uint4, Ex.tenth, 7⟩, ⟨Ex.c2, Ex.codes, .uint4, Ex.half, -3⟩])
    (h := by simp only [List.forall_mem_cons]; exact ⟨⟨by wit, by decide, by decide⟩, ⟨by wit, by decide, by decide⟩, by simp⟩)

/-- C43 for builds without contraction: the plain left-to-right float32 sum. -/
theorem C43_repeated_add_plain (calls : List AddCall)
    (h : ∀ a ∈ calls, DArgs a.c.threads a.x a.dt .f32 n ∧ a.dt ≠ .uint2 ∧ ZpSub a.zp) (hu : ∀ a ∈ calls, Uniform a.c false) :
    AfterAll n o calls m0 (fun m => ∀ i, i < n → f32At m (o + 4 * i) =
      calls.foldl (fun acc a => Flt.add acc (dequant a.scale a.zp (code a.dt.bits a.x.data 0 i))) (f32At m0 (o + 4 * i))) := by
  refine (C43_repeated_add calls h).mono (fun m hm i hi => ?_)
  have key : ∀ (l : List AddCall), (∀ a ∈ l, Uniform a.c false) → ∀ old v, IsSum i l old v →
      v = l.foldl (fun acc a => Flt.add acc (dequant a.scale a.zp (code a.dt.bits a.x.data 0 i))) old := by
    intro l
    induction l with
    | nil => intro _ old v hv; exact hv
    | cons a l ih =>
      rintro hl old v ⟨b, hb, hv⟩
      rw [(hl a List.mem_cons_self).has hb] at hv
      rw [List.foldl_cons]
      exact ih (fun a' ha' => hl a' (List.mem_cons_of_mem _ ha')) _ _ hv
  exact key calls hu _ _ (hm i hi)

/-- `C43_repeated_add_plain` applied to a concrete case. -/
example := C43_repeated_add_plain (n := 139) (o := 1000) (m0 := Ex.old)
    (calls := [⟨Ex.c1, Ex.codes, .uint4, Ex.tenth, 7⟩, ⟨Ex.c2, Ex.codes, .uint4, Ex.half, -3⟩])
    (h := by simp only [List.forall_mem_cons]; exact ⟨⟨by wit, by decide, by decide⟩, ⟨by wit, by decide, by decide⟩, by simp⟩)
    (hu := by simp only [List.forall_mem_cons]; exact ⟨rfl, rfl, by simp⟩)

example : DArgs 2 (Ex.buf [0x1B, 0xE4]) .uint4 .f32 4 ∧ (DType.uint4 ≠ .uint2) ∧ ZpSub 7 :=
  ⟨⟨rfl, rfl, by decide, sz 4 2⟩, by decide, by decide⟩

/-! ## C32 -/

theorem subI_64 {q : Nat} (hz : ZpSub zp) (hq : q < 256) : inI64 ((q:ℤ) - zp) := by
  unfold ZpSub at hz; unfold inI64; omega

/-- The scalar generic step (used by the fused call), under the definedness condition. -/
theorem qStep_defined {v : F32} (hdt : dt.isQuant = true) (hz : Zp32 zp) (hd : Defined mode τ (scaled v scale) zp) :
    qStep mode dt.qmax v τ (invScale scale) zp = .ret (clampI dt.qmax (rounded mode τ.toRat (scaled v scale).toRat + zp)) := by
  cases mode
  · exact qNearest64_ret.mpr ⟨fits_mono hd, rfl⟩
  · exact scalarStep_defined (ft := .f32) (mode := .stochastic) hdt hz hd

/-- A fused float32 call stores (SET) or adds (ADD) the value of the code of the formula of
C06/C17, on every kernel. -/
theorem C32_fused_f32_formula (h : QArgs c.threads x .f32 dt n) (hz : ZpSub zp)
    (hd : ∀ i, i < n → Defined mode τ (scaled (elem .f32 x.data 0 i) scale) zp) :
    Always NoFault (fused c x .f32 o (4 * n) dt scale zp mode op τ) (span o (4 * n)) m0
      (fun m => ∀ i, i < n → f32At m (o + 4 * i) = store op c.fuse.gen (f32At m0 (o + 4 * i)) scale zp
        (sat dt.bits (rounded mode τ.toRat (scaled (elem .f32 x.data 0 i) scale).toRat + zp)).toNat) := by
  have hz' : Zp32 zp := by unfold ZpSub at hz; unfold Zp32; omega
  have hx : x.size = FT.f32.size * n := h.size
  refine ⟨_, fused_jobs (ft := .f32) h.outQuant hx, ?_⟩
  have := fused_sched (E := NoFault) (ft := .f32) (c := c) (o := o) (m0 := m0) (scale := scale) (zp := zp) (op := op) (τ := τ) (mode := mode) noFault_oob h.outQuant hx h.sizes
    (fun i hi => Or.inl ⟨_, qStep_defined h.outQuant hz' (by rw [elem_spec]; exact hd i hi)⟩)
    (fun q hq => Or.inr (subI_64 hz (lt_of_le_of_lt (hq.trans qmax_le) (by norm_num))))
  refine ⟨this.safe, this.raceFree, this.progress, this.bounded, fun k d hr hdn i hi => ?_⟩
  obtain ⟨q, hq, g⟩ := (this.post k d hr hdn).1.1 i hi
  have hq : qStep mode dt.qmax (elem .f32 x.data 0 i) τ (invScale scale) zp = .ret q := hq
  rw [qStep_defined h.outQuant hz' (hd i hi)] at hq
  injection hq with hq
  simp only at g
  rw [g, opF_spec]
  congr 1
  have e : ((clampI dt.qmax (rounded mode τ.toRat (scaled (elem .f32 x.data 0 i) scale).toRat + zp) : ℕ) : ℤ) = _ := clampI_sat h.outQuant _
  rw [hq] at e
  rw [← e, Int.toNat_natCast]

/-- `C32_fused_f32_formula` applied to a concrete case. -/
example := C32_fused_f32_formula (c := Ex.c1) (x := Ex.many) (dt := .uint8) (n := 70) (o := 1000) (scale := Ex.tenth) (τ := Ex.quarter) (zp := 64)
    (mode := .nearest) (op := .add) (m0 := Ex.old) (h := by wit) (hz := by wit) (hd := by wit)

/-- C32, float32: quantize into a temporary buffer, dequantize from it, and run the fused call
(any contexts, thread counts, schedules and addresses): every output element is the same, provided
the old output elements are.  Missing: elements whose scaled value is ± the float just below one half
when the quantize call runs on a vector kernel (C07), the uint2 ADD tail (C10), ADD in builds that
contract the sum in one of the two codes only (`C32_false_contraction`), and bf16 (`C32_false_bf16`). -/
theorem C32_fused_equals_two_calls_partial {c' c'' : Ctx} {o' o'' : Nat} {m0' m0'' : Mem}
    (h : QArgs c.threads x .f32 dt n) (h' : Sizes n c'.threads) (h'' : Sizes n c''.threads) (hz : |zp| ≤ 2 ^ 22)
    (hd : ∀ i, i < n → Defined mode τ (scaled (elem .f32 x.data 0 i) scale) zp)
    (hx : ExactKernel c.isa .f32 dt mode ∨ ∀ i, i < n → |(scaled (elem .f32 x.data 0 i) scale).toRat| ≠ predHalf)
    (hf : op = .add → ∀ b, c'.fuse.Has b → b = c''.fuse.gen) :
    Always NoFault (quantize c x .f32 o (bytes dt.bits n) dt scale zp mode τ) (span o (bytes dt.bits n)) m0 (fun m =>
      Always NoFault (dequantize c' ⟨bytes dt.bits n + 1, fun a => m (o + a)⟩ (bytes dt.bits n) dt o' (4 * n) .f32 scale zp op) (span o' (4 * n)) m0' (fun m' =>
        Always NoFault (fused c'' x .f32 o'' (4 * n) dt scale zp mode op τ) (span o'' (4 * n)) m0'' (fun m'' =>
          ∀ i, i < n → f32At m0'' (o'' + 4 * i) = f32At m0' (o' + 4 * i) → (dt = .uint2 → op = .add → i < n / 4 * 4) →
            f32At m'' (o'' + 4 * i) = f32At m' (o' + 4 * i)))) := by
  have hz1 := abs_le.mp hz
  have hz32 : Zp32 zp := by norm_num at hz1; constructor <;> norm_num <;> omega
  have hzs : ZpSub zp := by norm_num at hz1; constructor <;> norm_num <;> omega
  refine (quantize_vals h hz32 hd (Or.inr hz)).mono (fun _ h => h) (fun m hm => ?_)
  have hargs : DArgs c'.threads ⟨bytes dt.bits n + 1, fun a => m (o + a)⟩ dt .f32 n := ⟨h.outQuant, rfl, Nat.le_succ _, h'⟩
  refine (dequantize_vals (c := c') (ft := .f32) (op := op) (o := o') (m0 := m0') (scale := scale) hargs (fun e _ _ _ => by subst e; rfl) hzs).mono (fun _ h => h) (fun m' hm' => ?_)
  refine (C32_fused_f32_formula (c := c'') ⟨rfl, h.outQuant, h.size, h''⟩ hzs hd).mono (fun _ h => h) (fun m'' hm'' i hi ho ht => ?_)
  rw [hm'' i hi, ho]
  have g := hm'.1 i hi
  unfold DqOut at g
  simp only at g
  have hop : (if dt = .uint2 ∧ n / 4 * 4 ≤ i then ReduceOp.set else op) = op := by
    split
    · rename_i hc
      cases op
      · rfl
      · have := ht hc.1 rfl; omega
    · rfl
  obtain ⟨b, hb, g⟩ := g
  have hst : ∀ old q, store op b old scale zp q = store op c''.fuse.gen old scale zp q := by
    intro old q
    cases op
    · rfl
    · rw [hf rfl b hb]
  rw [hop, dqF_eq (dt := dt) hzs (code_lt256 h.outQuant _ _ _), opF_spec, code_shift, hst] at g
  rw [g]
  congr 1
  have e : ((code dt.bits m o i : ℕ) : ℤ) = sat dt.bits (rounded mode τ.toRat (scaled (elem .f32 x.data 0 i) scale).toRat + zp) := by
    rcases hm.1 i hi with e | ⟨e1, e2, _⟩
    · exact e
    · rcases hx with hx | hx
      · exact absurd hx e1
      · exact absurd e2 (hx i hi)
  rw [← e, Int.toNat_natCast]

/-- `C32_fused_equals_two_calls_partial` applied to a concrete case. -/
example := C32_fused_equals_two_calls_partial (c := Ex.c1) (x := Ex.many) (dt := .uint8) (n := 70) (o := 1000) (scale := Ex.tenth) (τ := Ex.quarter)
    (zp := 64) (mode := .nearest) (op := .add) (m0 := Ex.old) (c' := Ex.c2) (c'' := Ex.c3) (o' := 3000) (o'' := 5000) (m0' := Ex.old) (m0'' := Ex.old)
    (h := by wit) (h' := by wit) (h'' := by wit) (hz := by wit) (hd := by wit) (hx := by wit) (hf := fun _ b hb => by revert b; decide)

/-- A sequential run computed by the kernel is the outcome of every schedule (C03). -/
theorem fused_result (h : QArgs c.threads x dtIn dtOut n) {l : List Nat}
    (he : Ex.result (fused c x dtIn o (dtIn.stride * n) dtOut scale zp mode op τ) o (dtIn.stride * n) m0 = .ok l) :
    Always NoFault (fused c x dtIn o (dtIn.stride * n) dtOut scale zp mode op τ) (span o (dtIn.stride * n)) m0
      (fun m => (List.range (dtIn.stride * n)).map (fun j => m (o + j)) = l) := by
  obtain ⟨js, e, _, g, _⟩ := fused_any (o := o) (scale := scale) (zp := zp) (op := op) (τ := τ) (mode := mode) h
  unfold Ex.result at he
  rw [e] at he
  simp only at he
  cases hs : runSeq (span o (dtIn.stride * n)) js m0 with
  | error f => rw [hs] at he; cases he
  | ok m =>
    rw [hs] at he
    simp only [Except.ok.injEq] at he
    have := g m0 m hs
    exact ⟨js, e, this.safe, this.raceFree, this.progress, this.bounded, fun k d hr' hd => by rw [this.post k d hr' hd]; exact he⟩

/-- C32 is false for bf16: for the element 0.875 with scale 0.1f and zero point 0, quantize stores
code 9 and dequantize turns it into the bf16 0x3F66, while the fused call (which multiplies
bf16(9) by bf16(scale)) stores 0x3F67. -/
theorem C32_false_bf16 :
    Always NoFault (quantize ⟨.portable, 1, .none⟩ (Ex.buf [0x60, 0x3f]) .bf16 64 1 .uint8 Ex.tenth 0 .nearest f0) (span 64 1) Ex.old (fun m => m 64 = 9) ∧
    Always NoFault (dequantize ⟨.portable, 1, .none⟩ (Ex.buf [9]) 1 .uint8 64 2 .bf16 Ex.tenth 0 .set) (span 64 2) Ex.old (fun m => u16At m 64 = 0x3F66) ∧
    Always NoFault (fused ⟨.portable, 1, .none⟩ (Ex.buf [0x60, 0x3f]) .bf16 64 2 .uint8 Ex.tenth 0 .nearest .set f0) (span 64 2) Ex.old (fun m => u16At m 64 = 0x3F67) := by
  refine ⟨?_, ?_, ?_⟩
  · exact (quantize_result (dtOut := .uint8) (n := 1) (l := [9]) ⟨rfl, rfl, rfl, sz 1 1⟩ (by decide +kernel)).mono (fun _ h => h) (fun m hm => (List.cons.inj hm).1)
  · refine (dequantize_result (c := ⟨.portable, 1, .none⟩) (n := 1) (o := 64) (scale := Ex.tenth) (zp := 0) (op := .set) (m0 := Ex.old)
      (l := [0x66, 0x3f]) ⟨rfl, rfl, by decide, sz 1 1⟩ (by unfold Readable; decide) (by decide +kernel)).mono (fun _ h => h) (fun m hm => ?_)
    have hm : [m 64, m 65] = [0x66, 0x3f] := hm
    simp only [List.cons.injEq, and_true] at hm
    unfold u16At; rw [hm.1, hm.2]
  · refine (fused_result (c := ⟨.portable, 1, .none⟩) (dtOut := .uint8) (n := 1) (o := 64) (m0 := Ex.old) (l := [0x67, 0x3f]) ⟨rfl, rfl, rfl, sz 1 1⟩ (by decide +kernel)).mono (fun _ h => h) (fun m hm => ?_)
    have hm : [m 64, m 65] = [0x67, 0x3f] := hm
    simp only [List.cons.injEq, and_true] at hm
    unfold u16At; rw [hm.1, hm.2]

end
end Verif.Props
