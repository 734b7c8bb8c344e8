import Verif.Props.Ieee
import Verif.Props.PipelineBf16

/-! # C86 for the fused call -/

namespace Verif.Props
open Verif Verif.Spec Verif.Ieee

section
variable {c : Ctx} {x : InBuf} {dtIn dtOut dt : DType} {o n sb : Nat} {zp : ℤ} {m0 : Mem} {mode : RoundMode} {op : ReduceOp} {tb : Nat} {t : ℚ}

/-- What the words say about the scaled values, as numbers. -/
theorem scaled_word (hs : sb < 2 ^ 32) {i p : Nat} {s : Bool} {a : ℚ} (hp : IsScaled sb (inputWord dtIn x.data i) p) (hda : decode binary32 p = .fin s a) :
    (scaled (elem dtIn x.data 0 i) (Flt.ofBits f32 sb)).isFin = true ∧ signed s a = (scaled (elem dtIn x.data 0 i) (Flt.ofBits f32 sb)).toRat := by
  have hv : (elem dtIn x.data 0 i).Valid := by cases dtIn <;> exact valid_ofBits _
  have hsc := ieee_scaled hs hv
  rw [inputWord_elem] at hsc
  rw [scaled_det hp hsc] at hda
  obtain ⟨g1, g2, g3⟩ := of_decode_fin (f := f32) hda
  have e : Flt.ofBits f32 (scaled (elem dtIn x.data 0 i) (Flt.ofBits f32 sb)).toBits = scaled (elem dtIn x.data 0 i) (Flt.ofBits f32 sb) :=
    ofBits_toBits (valid_mul _ _)
  rw [e] at g1 g2 g3
  exact ⟨by simpa [Flt.isFin] using g1, by rw [g2, g3, signed_absRat]⟩

theorem threshold_word (ht : decode binary32 tb = .fin false t) : (Flt.ofBits f32 tb).isFin = true ∧ (Flt.ofBits f32 tb).toRat = t ∧ 0 ≤ t := by
  obtain ⟨t1, t2, t3⟩ := of_decode_fin (f := f32) (show decode f32.ieee tb = .fin false t from ht)
  refine ⟨by simpa [Flt.isFin] using t1, by rw [← signed_absRat, ← t2, ← t3]; rfl, by rw [t3]; exact absRat_nonneg _⟩

theorem defined_word (hs : sb < 2 ^ 32) (ht : decode binary32 tb = .fin false t)
    (hd : ∀ i, i < n → ∃ p s a, IsScaled sb (inputWord dtIn x.data i) p ∧ decode binary32 p = .fin s a ∧ Room mode (signed s a) zp) :
    ∀ i, i < n → Defined mode (Flt.ofBits f32 tb) (scaled (elem dtIn x.data 0 i) (Flt.ofBits f32 sb)) zp := fun i hi => by
  obtain ⟨p, s, a, h0, h1, h2⟩ := hd i hi
  obtain ⟨g1, g2⟩ := scaled_word hs h0 h1
  obtain ⟨t1, t2, t3⟩ := threshold_word ht
  rw [g2] at h2
  cases mode
  · exact ⟨g1, ⟨h2.1, h2.2.1⟩, h2.2.2⟩
  · exact ⟨g1, h2, t1, by rw [t2]; exact t3⟩

/-- The code of the number `v`. -/
def codeOf (dt : DType) (mode : RoundMode) (t v : ℚ) (zp : ℤ) : ℤ := sat dt.bits (rounded mode t v + zp)

theorem codeOf_nat (dt : DType) (mode : RoundMode) (t v : ℚ) (zp : ℤ) : (((codeOf dt mode t v zp).toNat : Nat) : ℤ) = codeOf dt mode t v zp := by
  have hp : (0 : ℤ) < 2 ^ dt.bits := by positivity
  exact Int.toNat_of_nonneg (by unfold codeOf sat; omega)

/-- C86. The fused call on float32 data, every kernel set: with `p` the IEEE product of the element and the IEEE reciprocal of the
scale and `q` the code of `p` (rounded, plus zero point, saturated), the word stored is `float(q - zero_point) * scale`; for ADD it is
the sum of the old word and that product, or (if the compiler contracts) the fused multiply-add.  All operations are those of IEEE 754
on bit patterns. -/
theorem C86_fused_f32 (hs : sb < 2 ^ 32) (ht : decode binary32 tb = .fin false t) (h : QArgs c.threads x .f32 dt n) (hz : ZpSub zp)
    (hd : ∀ i, i < n → ∃ p s a, IsScaled sb (inputWord .f32 x.data i) p ∧ decode binary32 p = .fin s a ∧ Room mode (signed s a) zp) :
    Always NoFault (fused c x .f32 o (4 * n) dt (Flt.ofBits f32 sb) zp mode op (Flt.ofBits f32 tb)) (span o (4 * n)) m0
      (fun m => ∀ i p s a, i < n → IsScaled sb (inputWord .f32 x.data i) p → decode binary32 p = .fin s a →
        ∃ d, IsFromInt binary32 (codeOf dt mode t (signed s a) zp - zp) d ∧
          match op with
          | .set => IsProduct binary32 d sb (u32At m (o + 4 * i))
          | .add => (∃ r, IsProduct binary32 d sb r ∧ Ieee.IsSum binary32 (u32At m0 (o + 4 * i)) r (u32At m (o + 4 * i))) ∨
              IsFma binary32 d sb (u32At m0 (o + 4 * i)) (u32At m (o + 4 * i))) := by
  refine (C32_fused_f32_formula (op := op) h hz (defined_word hs ht hd)).mono (fun _ h => h) (fun m hm i p s a hi hp hda => ?_)
  have g := hm i hi
  rw [← (scaled_word hs hp hda).2, (threshold_word ht).2.1] at g
  have hq := codeOf_nat dt mode t (signed s a) zp
  change f32At m (o + 4 * i) = store op c.fuse.gen (f32At m0 (o + 4 * i)) (Flt.ofBits f32 sb) zp (codeOf dt mode t (signed s a) zp).toNat at g
  rw [← hq]
  generalize (codeOf dt mode t (signed s a) zp).toNat = q at g
  have hv : (Flt.ofInt f32 ((q : ℤ) - zp)).Valid := valid_ofRat _ _
  have hold : (f32At m0 (o + 4 * i)).Valid := valid_ofBits _
  have hmul := ieee_mul (f := f32) hv (valid_ofBits sb)
  rw [toBits_ofBits hs] at hmul
  refine ⟨_, ieee_ofInt (f := f32) _, ?_⟩
  cases op
  · show IsProduct _ _ _ _
    rw [← f32At_bits m, g]
    exact hmul
  · show _ ∨ _
    unfold store plus at g
    simp only at g
    split at g
    · right
      have h1 := ieee_fma (f := f32) hv (valid_ofBits sb) hold
      rw [f32At_bits, toBits_ofBits hs] at h1
      rw [← f32At_bits m, g]
      exact h1
    · left
      refine ⟨_, hmul, ?_⟩
      have h1 := ieee_add (f := f32) hold (valid_mul (Flt.ofInt f32 ((q : ℤ) - zp)) (Flt.ofBits f32 sb))
      rw [f32At_bits] at h1
      rw [← f32At_bits m, g]
      exact h1

/-- `C86_fused_f32` applied to a concrete case. -/
example := C86_fused_f32 (c := Ex.c1) (x := Ex.xs) (dt := .uint4) (o := 1000) (n := 5) (sb := 0x3f000000) (tb := 0) (t := 0) (mode := .nearest) (op := .add) (zp := 8)
  (m0 := Ex.old) (by norm_num) (by norm_num [Ieee.decode, Ieee.ofFields, Ieee.binary32, Ieee.Format.bias]) (by wit) (by wit) xs_room

theorem valid_cvt16 (v : F32) : (Flt.cvt bf16 v).Valid := by
  unfold Flt.cvt
  split
  · exact nan_valid
  · split
    · exact valid_of_le' le_rfl
    · exact valid_of_le' (min_le_left _ _)

theorem valid_mul16 (a b : Flt bf16) : (Flt.mul a b).Valid := by
  unfold Flt.mul
  split
  · exact nan_valid
  · split
    · split
      · exact nan_valid
      · exact valid_of_le' le_rfl
    · exact valid_of_le' (min_le_left _ _)

/-- C86. The fused call on bf16 data: `bfloat16(float(q - zero_point))` times `bfloat16(scale)` in bfloat16 arithmetic, for ADD
added to the old element in bfloat16 arithmetic. -/
theorem C86_fused_bf16 (hs : sb < 2 ^ 32) (ht : decode binary32 tb = .fin false t) {ss : Bool} {sa : ℚ} (hsc : decode binary32 sb = .fin ss sa)
    (h : QArgs c.threads x .bf16 dt n) (hz : |zp| ≤ 2 ^ 23)
    (hd : ∀ i, i < n → ∃ p s a, IsScaled sb (inputWord .bf16 x.data i) p ∧ decode binary32 p = .fin s a ∧ Room mode (signed s a) zp) :
    Always NoFault (fused c x .bf16 o (2 * n) dt (Flt.ofBits f32 sb) zp mode op (Flt.ofBits f32 tb)) (span o (2 * n)) m0
      (fun m => ∀ i p s a, i < n → IsScaled sb (inputWord .bf16 x.data i) p → decode binary32 p = .fin s a →
        ∃ d d' s' r, IsFromInt binary32 (codeOf dt mode t (signed s a) zp - zp) d ∧ IsConversion binary32 bfloat16 d d' ∧
          IsConversion binary32 bfloat16 sb s' ∧ IsProduct bfloat16 d' s' r ∧
          match op with
          | .set => u16At m (o + 2 * i) = r
          | .add => Ieee.IsSum bfloat16 (u16At m0 (o + 2 * i)) r (u16At m (o + 2 * i))) := by
  obtain ⟨s1, _, _⟩ := of_decode_fin (f := f32) (show decode f32.ieee sb = .fin ss sa from hsc)
  refine (C81_fused_bf16_formula (op := op) h hz (by simpa [Flt.isFin] using s1) (defined_word hs ht hd)).mono (fun _ h => h) (fun m hm i p s a hi hp hda => ?_)
  have g := hm i hi
  rw [← (scaled_word hs hp hda).2, (threshold_word ht).2.1] at g
  have hq := codeOf_nat dt mode t (signed s a) zp
  change u16At m (o + 2 * i) = storeB op (u16At m0 (o + 2 * i)) (Flt.ofBits f32 sb) zp (codeOf dt mode t (signed s a) zp).toNat at g
  rw [← hq]
  generalize (codeOf dt mode t (signed s a) zp).toNat = q at g
  have hv : (Flt.ofInt f32 ((q : ℤ) - zp)).Valid := valid_ofRat _ _
  have hcv := ieee_cvt (f := f32) (g := bf16) (valid_ofBits sb)
  rw [toBits_ofBits hs] at hcv
  refine ⟨_, _, _, _, ieee_ofInt (f := f32) _, ieee_cvt (f := f32) (g := bf16) hv, hcv, ieee_mul (f := bf16) (valid_cvt16 _) (valid_cvt16 _), ?_⟩
  cases op
  · exact g
  · show Ieee.IsSum _ _ _ _
    have e : (Flt.ofBits bf16 (u16At m0 (o + 2 * i))).toBits = u16At m0 (o + 2 * i) := by
      have hw := u16At_lt16 m0 (o + 2 * i)
      have e : bf16.magLim = 32768 := by decide
      unfold Flt.ofBits Flt.toBits
      simp only [e, decide_eq_true_eq]
      split <;> omega
    have h1 := ieee_add (f := bf16) (a := Flt.ofBits bf16 (u16At m0 (o + 2 * i))) (b := dequantB (Flt.ofBits f32 sb) zp q) (Nat.mod_lt _ (by decide)) (valid_mul16 _ _)
    rw [e] at h1
    rw [g]
    exact h1

/-- A fused call on bf16 data (scale 0.5, the three values of `Ex.xb`) meets the hypotheses. -/
theorem xb_room : ∀ i, i < 3 → ∃ p s a, IsScaled 0x3f000000 (inputWord .bf16 Ex.xb.data i) p ∧ decode binary32 p = .fin s a ∧
      Room .nearest (signed s a) 8 := by
  intro i hi
  have hF : Fits 32 (scaled (elem .bf16 Ex.xb.data 0 i) (Flt.ofBits f32 0x3f000000)) 8 := by
    revert i; decide +kernel
  obtain ⟨h1, ⟨h2, h3⟩, h4, h5⟩ := hF
  refine ⟨_, _, _, ?_, decode_fin (f := f32) (isFin_mag h1), ?_⟩
  · rw [← inputWord_elem]; exact ieee_scaled (by norm_num) (valid_ofBits _)
  · rw [signed_absRat]; exact ⟨h2, h3, h4, h5⟩

example := C86_fused_bf16 (c := Ex.c1) (x := Ex.xb) (dt := .uint4) (o := 1000) (n := 3) (sb := 0x3f000000) (tb := 0) (t := 0) (mode := .nearest) (op := .add) (zp := 8)
  (m0 := Ex.old) (by norm_num) (by norm_num [Ieee.decode, Ieee.ofFields, Ieee.binary32, Ieee.Format.bias])
  (decode_fin (f := f32) (x := Ex.half) (by decide)) (by wit) (by norm_num) xb_room

end

end Verif.Props
