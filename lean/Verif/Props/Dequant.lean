import Verif.Props.Examples
import Verif.Props.Quant
import Verif.Props.Safety
import Verif.Proofs.DqVal

/-!
# What `dequantize` computes: C09, C10, C13, C36 (dequantize half), C42, C43
-/

namespace Verif.Props
open Spec

section
variable {c : Ctx} {x : InBuf} {dtIn dtOut : DType} {n o : Nat} {scale τ : F32} {zp : ℤ} {mode : RoundMode} {op : ReduceOp} {m0 : Mem}

/-- A dequantize call with an in-range zero point never faults; the result in kernel terms. -/
theorem dequantize_vals {ft : FT} (h : DArgs c.threads x dtIn ft.dtype n) (hr : Readable dtIn ft.dtype n x.size) (hz : ZpSub zp) :
    Always NoFault (dequantize c x (bytes dtIn.bits n) dtIn o (ft.size * n) ft.dtype scale zp op) (span o (ft.size * n)) m0
      (fun m => DRes c x dtIn ft n o scale zp op m0 m) := by
  refine ⟨_, dequantize_jobs h.inQuant h.sizes.addr, ?_⟩
  have := dequantize_sched (E := NoFault) (c := c) (o := o) (m0 := m0) (scale := scale) (zp := zp) (op := op) noFault_oob h.inQuant h.size (readable_le h hr rfl) h.sizes
    (fun i _ => Or.inr (dqRange_of hz (code_lt256 h.inQuant _ _ _)))
  exact ⟨this.safe, this.raceFree, this.progress, this.bounded, fun k d hr hd => (this.post k d hr hd).1⟩

/-- A sequential run computed by the kernel is the outcome of every schedule (C03). -/
theorem dequantize_result (h : DArgs c.threads x dtIn dtOut n) (hr : Readable dtIn dtOut n x.size) {l : List Nat}
    (he : Ex.result (dequantize c x (bytes dtIn.bits n) dtIn o (dtOut.stride * n) dtOut scale zp op) o (dtOut.stride * n) m0 = .ok l) :
    Always NoFault (dequantize c x (bytes dtIn.bits n) dtIn o (dtOut.stride * n) dtOut scale zp op) (span o (dtOut.stride * n)) m0
      (fun m => (List.range (dtOut.stride * n)).map (fun j => m (o + j)) = l) := by
  obtain ⟨js, e, _, g⟩ := C03_dequantize_schedule_independent (o := o) (m0 := m0) (scale := scale) (zp := zp) (op := op) h hr
  unfold Ex.result at he
  rw [e] at he
  simp only at he
  cases hs : runSeq (span o (dtOut.stride * n)) js m0 with
  | error f => rw [hs] at he; cases he
  | ok m =>
    rw [hs] at he
    simp only [Except.ok.injEq] at he
    have := g m hs
    exact ⟨js, e, this.safe, this.raceFree, this.progress, this.bounded, fun k d hr' hd => by rw [this.post k d hr' hd]; exact he⟩

/-! ## C09 -/

/-- C09, float32 output: SET stores `fl32(fl32(code - zero_point) * scale)`, for every quantized
dtype, kernel, thread count and schedule, whatever the previous contents of the output. -/
theorem C09_dequantize_f32_formula (h : DArgs c.threads x dtIn .f32 n) (hr : Readable dtIn .f32 n x.size) (hz : ZpSub zp) :
    Always NoFault (dequantize c x (bytes dtIn.bits n) dtIn o (4 * n) .f32 scale zp .set) (span o (4 * n)) m0
      (fun m => ∀ i, i < n → f32At m (o + 4 * i) = dequant scale zp (code dtIn.bits x.data 0 i)) := by
  refine (dequantize_vals (ft := .f32) (op := .set) h hr hz).mono (fun _ h => h) (fun m hm i hi => ?_)
  have := hm.1 i hi
  unfold DqOut at this
  simp only [ite_self] at this
  obtain ⟨b, _, this⟩ := this
  rw [this, dqF_eq (dt := dtIn) hz (code_lt256 h.inQuant _ _ _)]
  rfl

/-- `C09_dequantize_f32_formula` applied to a concrete case. -/
example := C09_dequantize_f32_formula (c := Ex.c1) (x := Ex.codes) (dtIn := .uint4) (n := 139) (o := 1000) (scale := Ex.tenth) (zp := 7) (m0 := Ex.old)
    (h := by wit) (hr := by wit) (hz := by wit)

/-- C09, bf16 output, every kernel without AVX-512: SET stores the bf16 nearest to that value. -/
theorem C09_dequantize_bf16_formula (h : DArgs c.threads x dtIn .bf16 n) (hz : ZpSub zp) (h2 : dtIn = .uint2 → |zp| ≤ 2 ^ 24)
    (hi : c.isa ≠ .avx512f ∧ c.isa ≠ .avx512bf16) :
    Always NoFault (dequantize c x (bytes dtIn.bits n) dtIn o (2 * n) .bf16 scale zp .set) (span o (2 * n)) m0
      (fun m => ∀ i, i < n → IsBf16Of (dequant scale zp (code dtIn.bits x.data 0 i)) (u16At m (o + 2 * i))) := by
  refine (dequantize_vals (ft := .bf16) (op := .set) h (fun _ h => by cases h) hz).mono (fun _ h => h) (fun m hm i hi' => ?_)
  rcases hm.1 i hi' with g | ⟨g | g, _⟩
  · rw [g, ← dqB_eq (dt := dtIn) hz (code_lt256 h.inQuant _ _ _) h2]
    refine isBf16Of_f32ToBf16 ?_
    rw [dqB_eq (dt := dtIn) hz (code_lt256 h.inQuant _ _ _) h2]; exact valid_mul _ _
  · exact absurd g hi.1
  · exact absurd g hi.2

/-- `C09_dequantize_bf16_formula` applied to a concrete case. -/
example := C09_dequantize_bf16_formula (c := Ex.c3) (x := Ex.codes) (dtIn := .uint4) (n := 139) (o := 1000) (scale := Ex.tenth) (zp := 7)
    (m0 := Ex.old) (h := by wit) (hz := by wit) (h2 := by wit) (hi := by wit)

/-- The value the AVX-512 uint4/uint2 → bf16 kernels compute: one fused multiply-add with a rounded
bias, `fl(q * scale + fl(-zero_point * scale))`. -/
def fmaDequant (scale : F32) (zp : ℤ) (q : Nat) : F32 :=
  Flt.fma (Flt.ofInt f32 q) scale (Flt.mul (Flt.negate (Flt.ofInt f32 zp)) scale)

/-- C09, bf16 output, every kernel.  What is missing: on AVX-512 uint4/uint2 a different value
(`fmaDequant`) may be stored, and the AVX-512-BF16 kernels flush denormal values to zero. -/
theorem C09_dequantize_bf16_any_kernel_partial (h : DArgs c.threads x dtIn .bf16 n) (hz : ZpSub zp) (h2 : dtIn = .uint2 → |zp| ≤ 2 ^ 24) :
    Always NoFault (dequantize c x (bytes dtIn.bits n) dtIn o (2 * n) .bf16 scale zp .set) (span o (2 * n)) m0
      (fun m => ∀ i, i < n → ∃ v,
        (v = dequant scale zp (code dtIn.bits x.data 0 i) ∨
          ((c.isa = .avx512f ∨ c.isa = .avx512bf16) ∧ dtIn ≠ .uint8 ∧ v = fmaDequant scale zp (code dtIn.bits x.data 0 i))) ∧
        (IsBf16Of v (u16At m (o + 2 * i)) ∨
          (c.isa = .avx512bf16 ∧ v.isFin = true ∧ |v.toRat| < 1 / 2 ^ 126 ∧ u16At m (o + 2 * i) % 32768 = 0))) := by
  refine (dequantize_vals (ft := .bf16) (op := .set) h (fun _ h => by cases h) hz).mono (fun _ h => h) (fun m hm i hi' => ?_)
  rcases hm.1 i hi' with g | ⟨gi, g⟩
  · refine ⟨_, Or.inl rfl, Or.inl ?_⟩
    rw [g, ← dqB_eq (dt := dtIn) hz (code_lt256 h.inQuant _ _ _) h2]
    refine isBf16Of_f32ToBf16 ?_
    rw [dqB_eq (dt := dtIn) hz (code_lt256 h.inQuant _ _ _) h2]; exact valid_mul _ _
  · have hv : vopB .set (dqV c.fuse.vec dtIn scale zp (code dtIn.bits x.data 0 i)) (u16At m0 (o + 2 * i)) = (dqV c.fuse.vec dtIn scale zp (code dtIn.bits x.data 0 i)).val := rfl
    rw [hv] at g
    by_cases h8 : dtIn = .uint8
    · subst h8
      have e : (dqV c.fuse.vec .uint8 scale zp (code DType.uint8.bits x.data 0 i)).val = dequant scale zp (code DType.uint8.bits x.data 0 i) := by
        unfold dqV; rw [wrap32_zpSub hz, dqMulT_eq hz (code_lt256 h.inQuant _ _ _)]; rfl
      rw [e] at g
      refine ⟨_, Or.inl rfl, ?_⟩
      rw [g]
      exact cvtB_spec (valid_mul _ _) mul_nan
    · have e : (dqV c.fuse.vec dtIn scale zp (code dtIn.bits x.data 0 i)).val = fmaDequant scale zp (code dtIn.bits x.data 0 i) := by
        unfold dqV; rw [wrap32_zpSub hz]
        cases dtIn <;> first | exact absurd rfl h8 | rfl
      rw [e] at g
      refine ⟨_, Or.inr ⟨gi, h8, rfl⟩, ?_⟩
      rw [g]
      exact cvtB_spec (valid_fma _ _ _) fma_nan

/-- `C09_dequantize_bf16_any_kernel_partial` applied to a concrete case. -/
example := C09_dequantize_bf16_any_kernel_partial (c := Ex.c1) (x := Ex.codes) (dtIn := .uint4) (n := 139) (o := 1000) (scale := Ex.tenth) (zp := 7)
    (m0 := Ex.old) (h := by wit) (hz := by wit) (h2 := by wit)

end
end Verif.Props
