import Verif.Proofs.DqVectored
import Verif.Props.DequantSame
import Verif.Props.Vectored

/-!
# C117: the complete specification of dequantization

Which codes are processed by vector instructions (`Spec.DqVectored`), and the exact value stored for every
code: SET and ADD, float32 and bf16 output, every kernel, thread count, schedule and compiler contraction.
-/

namespace Verif.Props
open Verif Spec Simd

variable {c c' : Ctx} {x x' : InBuf} {dtIn : DType} {n o o' : Nat} {scale : F32} {zp : ℤ} {op : ReduceOp} {m0 m0' : Mem}

/-- The reduce operation that takes effect on element `i`: the last `n % 4` elements of a `uint2 → float32`
call are always stored (the defect of C10). -/
def effective (dtIn : DType) (op : ReduceOp) (n i : Nat) : ReduceOp := if dtIn = .uint2 ∧ n / 4 * 4 ≤ i then .set else op

/-- The result of a finished dequantize call with float32 output. -/
def DequantizedF32 (c : Ctx) (x : InBuf) (dtIn : DType) (n o : Nat) (scale : F32) (zp : ℤ) (op : ReduceOp) (m0 m : Mem) : Prop :=
  (∀ i, i < n → f32At m (o + 4 * i) =
    store (effective dtIn op n i) (contractedAt c.fuse dtIn (DqVectored c.isa c.threads dtIn .f32 n i)) (f32At m0 (o + 4 * i)) scale zp
      (code dtIn.bits x.data 0 i)) ∧
  (∀ a, (a < o ∨ o + 4 * n ≤ a) → m a = m0 a)

/-- The result of a finished dequantize call with bf16 output. -/
def DequantizedBf16 (c : Ctx) (x : InBuf) (dtIn : DType) (n o : Nat) (scale : F32) (zp : ℤ) (op : ReduceOp) (m0 m : Mem) : Prop :=
  (∀ i, i < n → DqVectored c.isa c.threads dtIn .bf16 n i →
    VecBf16 c.isa (vecSum op c.fuse.vec dtIn (bf16At m0 (o + 2 * i)) scale zp (code dtIn.bits x.data 0 i)) (u16At m (o + 2 * i))) ∧
  (∀ i, i < n → ¬ DqVectored c.isa c.threads dtIn .bf16 n i →
    ScalBf16 op (bf16At m0 (o + 2 * i)) scale zp (code dtIn.bits x.data 0 i) (u16At m (o + 2 * i))) ∧
  (∀ a, (a < o ∨ o + 2 * n ≤ a) → m a = m0 a)

/-- A dequantize call with an in-range zero point never faults; the result in kernel terms. -/
theorem dequantize_at {ft : FT} (h : DArgs c.threads x dtIn ft.dtype n) (hr : Readable dtIn ft.dtype n x.size) (hz : ZpSub zp) :
    Always NoFault (dequantize c x (bytes dtIn.bits n) dtIn o (ft.size * n) ft.dtype scale zp op) (span o (ft.size * n)) m0
      (fun m => (∀ i, i < n → DqOutAt c.isa c.fuse dtIn ft op scale zp m0 m o n (DqVectored c.isa c.threads dtIn ft.dtype n i) i (code dtIn.bits x.data 0 i)) ∧
        (∀ a, (a < o ∨ o + ft.size * n ≤ a) → m a = m0 a)) := by
  refine ⟨_, dequantize_jobs h.inQuant h.sizes.addr, ?_⟩
  exact dequantizeAt_sched (E := NoFault) (c := c) (o := o) (m0 := m0) (scale := scale) (zp := zp) (op := op) noFault_oob h.inQuant h.size
    (readable_le h hr rfl) h.sizes (fun i _ => Or.inr (dqRange_of hz (code_lt256 h.inQuant _ _ _)))

/-- C117, float32 output: no call faults, and element `i` is exactly the code's value stored to or added to the
old element; the sum is contracted or not as the compiler chose for the part of the code that processes it. -/
theorem C117_float32 (h : DArgs c.threads x dtIn .f32 n) (hr : Readable dtIn .f32 n x.size) (hz : ZpSub zp) :
    Always NoFault (dequantize c x (bytes dtIn.bits n) dtIn o (4 * n) .f32 scale zp op) (span o (4 * n)) m0
      (DequantizedF32 c x dtIn n o scale zp op m0) := by
  refine (dequantize_at (ft := .f32) h hr hz).mono (fun _ h => h) (fun m hm => ⟨fun i hi => ?_, hm.2⟩)
  obtain ⟨b, hb, e⟩ := hm.1 i hi
  rw [e, dqF_eq (dt := dtIn) hz (code_lt256 h.inQuant _ _ _), opF_spec]
  have : b = contractedAt c.fuse dtIn (DqVectored c.isa c.threads dtIn .f32 n i) := by
    unfold contractedAt
    rcases hb with ⟨h1, rfl⟩ | ⟨h1, h2, rfl⟩ | ⟨h1, h2, rfl⟩
    · rw [if_pos h1]
    · rw [if_neg h1]; exact (if_pos h2).symm
    · rw [if_neg h1]; exact (if_neg h2).symm
  rw [this]
  rfl

/-- C117, bf16 output: no call faults, and every stored word is that of the scalar code or that of the AVX-512
code, according to the position of its code. -/
theorem C117_bf16 (h : DArgs c.threads x dtIn .bf16 n) (hz : ZpSub zp) (h2 : dtIn = .uint2 → |zp| ≤ 2 ^ 24) :
    Always NoFault (dequantize c x (bytes dtIn.bits n) dtIn o (2 * n) .bf16 scale zp op) (span o (2 * n)) m0
      (DequantizedBf16 c x dtIn n o scale zp op m0) := by
  refine (dequantize_at (ft := .bf16) h (fun _ h => by cases h) hz).mono (fun _ h => h) (fun m hm => ⟨fun i hi hg => ?_, fun i hi hg => ?_, hm.2⟩)
  · rcases hm.1 i hi with ⟨g, _⟩ | ⟨_, _, g⟩
    · exact absurd hg g
    rw [g]
    have e : vopB op (dqV c.fuse.vec dtIn scale zp (code dtIn.bits x.data 0 i)) (u16At m0 (o + 2 * i)) =
        vecSum op c.fuse.vec dtIn (bf16At m0 (o + 2 * i)) scale zp (code dtIn.bits x.data 0 i) := by
      unfold vecSum
      split
      · rename_i h8
        subst h8
        unfold dqV
        rw [wrap32_zpSub hz, dqMulT_eq hz (code_lt256 h.inQuant _ _ _)]
        cases op
        · rfl
        · show Term.plus _ (bf16ToF32 _) = _
          rw [bf16ToF32_spec]; rfl
      · rename_i h8
        unfold dqV
        rw [wrap32_zpSub hz]
        cases op
        · cases dtIn <;> first | exact absurd rfl h8 | rfl
        · show Term.plus _ (bf16ToF32 _) = _
          rw [bf16ToF32_spec]
          cases dtIn <;> first | exact absurd rfl h8 | rfl
    rw [← e]
    refine cvtB_exact (valid_vopB (dqV_valid _ _ _ _ _)) (fun hn => ?_)
    cases op
    · have hn' : ((dqV c.fuse.vec dtIn scale zp (code dtIn.bits x.data 0 i)).val).isNaN = true := hn
      show (dqV c.fuse.vec dtIn scale zp (code dtIn.bits x.data 0 i)).val = Flt.nan
      unfold dqV at hn' ⊢
      split at hn'
      · exact mul_nan hn'
      · exact fma_nan hn'
    · exact dqV_nan _ _ _ _ _ _ hn
  · rcases hm.1 i hi with ⟨_, g⟩ | ⟨g, _⟩
    · have key : IsBf16Of (dequant scale zp (code dtIn.bits x.data 0 i)) (f32ToBf16 (dqB dtIn scale zp (code dtIn.bits x.data 0 i))) := by
        rw [dqB_eq (dt := dtIn) hz (code_lt256 h.inQuant _ _ _) h2]
        exact isBf16Of_f32ToBf16 (valid_mul _ _)
      cases op
      · show IsBf16Of _ _
        rw [g]; exact key
      · refine ⟨_, key, ?_⟩
        rw [g]
        show IsBf16Of _ (f32ToBf16 (Flt.add (bf16ToF32 _) (bf16ToF32 _)))
        rw [bf16ToF32_spec, bf16ToF32_word f32ToBf16_lt]
        exact isBf16Of_f32ToBf16 (valid_add _ _)
    · exact absurd g hg

/-- C117, two calls on the same codes (other threads, addresses, CPUs), float32, SET or ADD to equal old
elements: an element whose sum is contracted in both calls or in neither gets the same float in both -
on one machine, every element in a vector part of both calls or of neither. -/
theorem C117_same_part_f32 (h : DArgs c.threads x dtIn .f32 n) (hr : Readable dtIn .f32 n x.size)
    (h' : DArgs c'.threads x' dtIn .f32 n) (hr' : Readable dtIn .f32 n x'.size) (hz : ZpSub zp) :
    Always NoFault (dequantize c x (bytes dtIn.bits n) dtIn o (4 * n) .f32 scale zp op) (span o (4 * n)) m0 (fun m =>
      Always NoFault (dequantize c' x' (bytes dtIn.bits n) dtIn o' (4 * n) .f32 scale zp op) (span o' (4 * n)) m0' (fun m' =>
        ∀ i, i < n → code dtIn.bits x.data 0 i = code dtIn.bits x'.data 0 i → f32At m0 (o + 4 * i) = f32At m0' (o' + 4 * i) →
          contractedAt c.fuse dtIn (DqVectored c.isa c.threads dtIn .f32 n i) = contractedAt c'.fuse dtIn (DqVectored c'.isa c'.threads dtIn .f32 n i) →
          f32At m (o + 4 * i) = f32At m' (o' + 4 * i))) := by
  refine (C117_float32 h hr hz).mono (fun _ h => h) (fun m hm => (C117_float32 h' hr' hz).mono (fun _ h => h) (fun m' hm' i hi hc ho hb => ?_))
  rw [hm.1 i hi, hm'.1 i hi, hc, ho, hb]

/-- C117, bf16, two calls on the same CPU and build: an element in the AVX-512 part of both calls or of neither
gets the same word in both, whatever the threads, addresses and schedules. -/
theorem C117_same_part_bf16 (h : DArgs c.threads x dtIn .bf16 n) (h' : DArgs c'.threads x' dtIn .bf16 n) (hz : ZpSub zp)
    (hi : c.isa = c'.isa) (hf : c.fuse = c'.fuse) :
    Always NoFault (dequantize c x (bytes dtIn.bits n) dtIn o (2 * n) .bf16 scale zp op) (span o (2 * n)) m0 (fun m =>
      Always NoFault (dequantize c' x' (bytes dtIn.bits n) dtIn o' (2 * n) .bf16 scale zp op) (span o' (2 * n)) m0' (fun m' =>
        ∀ i, i < n → code dtIn.bits x.data 0 i = code dtIn.bits x'.data 0 i → u16At m0 (o + 2 * i) = u16At m0' (o' + 2 * i) →
          (DqVectored c.isa c.threads dtIn .bf16 n i ↔ DqVectored c'.isa c'.threads dtIn .bf16 n i) →
          u16At m (o + 2 * i) = u16At m' (o' + 2 * i))) := by
  refine (dequantize_at (ft := .bf16) h (fun _ h => by cases h) hz).mono (fun _ h => h) (fun m hm => ?_)
  refine (dequantize_at (ft := .bf16) h' (fun _ h => by cases h) hz).mono (fun _ h => h) (fun m' hm' i hi2 hc ho hv => ?_)
  rcases hm.1 i hi2 with ⟨g1, e1⟩ | ⟨g1, _, e1⟩ <;> rcases hm'.1 i hi2 with ⟨g2, e2⟩ | ⟨g2, _, e2⟩
  · rw [e1, e2, hc, ho]
  · exact absurd (hv.mpr g2) g1
  · exact absurd (hv.mp g1) g2
  · rw [e1, e2, hc, ho, hi, hf]

/-! ## Concrete cases -/

/-- One hundred and forty codes: the vector parts with one and with three threads. -/
example : (∀ i, i < 140 → (DqVectored .avx2 1 .uint8 .f32 140 i ↔ i < 128)) ∧ (∀ i, i < 140 → ¬ DqVectored .avx2 3 .uint8 .f32 140 i) ∧
    (∀ i, i < 140 → (DqVectored .sse42 3 .uint4 .f32 140 i ↔ i < 32 ∨ (46 ≤ i ∧ i < 78) ∨ (92 ≤ i ∧ i < 124))) ∧
    (∀ i, i < 140 → (DqVectored .avx512bf16 1 .uint4 .bf16 140 i ↔ i < 128)) ∧ (∀ i, i < 140 → ¬ DqVectored .avx2 1 .uint4 .bf16 140 i) := by
  decide +kernel

/-- The specification separates the two parts: code 3, zero point 3, scale 0.1 is `0` for the scalar code and not
for the vector code of the AVX-512 bf16 kernels; a denormal sum keeps its sign and nothing else on AVX512-BF16. -/
example : dequant Ex.tenth 3 3 = f0 ∧ biased Ex.tenth 3 3 = ⟨true, 0x32000000⟩ ∧
    VecBf16 .avx512bf16 ⟨true, 0x00400000⟩ 32768 ∧ ¬ VecBf16 .avx512f ⟨true, 0x00400000⟩ 32768 ∧ VecBf16 .avx512f ⟨true, 0x00400000⟩ 0x8040 := by
  refine ⟨by decide +kernel, by decide +kernel, ?_, ?_, ?_⟩
  · unfold VecBf16; rw [if_pos (by decide +kernel)]; rfl
  · unfold VecBf16 IsBf16Of; rw [if_neg (by decide), if_neg (by decide)]; decide +kernel
  · unfold VecBf16 IsBf16Of; rw [if_neg (by decide), if_neg (by decide)]; decide +kernel

example := C117_float32 (c := Ex.c1) (x := Ex.codes) (dtIn := .uint4) (n := 139) (o := 1000) (scale := Ex.tenth) (zp := 7) (op := .add) (m0 := Ex.old)
    (h := by wit) (hr := by wit) (hz := by wit)
example := C117_bf16 (c := ⟨.avx512bf16, 1, .all⟩) (x := Ex.codes) (dtIn := .uint4) (n := 139) (o := 1000) (scale := Ex.tenth) (zp := 7) (op := .add)
    (m0 := Ex.old) (h := ⟨rfl, rfl, by decide +kernel, sz 139 1⟩) (hz := by wit) (h2 := by wit)
example := C117_same_part_f32 (c := ⟨.neon, 1, clang⟩) (c' := ⟨.neon, 2, clang⟩) (x := Ex.codes) (x' := Ex.codes) (dtIn := .uint4) (n := 139) (o := 1000)
    (o' := 3000) (scale := Ex.tenth) (zp := 7) (op := .add) (m0 := Ex.old) (m0' := Ex.old) (h := ⟨rfl, rfl, by decide +kernel, sz 139 1⟩) (hr := by wit)
    (h' := ⟨rfl, rfl, by decide +kernel, sz 139 2⟩) (hr' := by wit) (hz := by wit)
example := C117_same_part_bf16 (c := ⟨.avx512f, 1, clang⟩) (c' := ⟨.avx512f, 2, clang⟩) (x := Ex.codes) (x' := Ex.codes) (dtIn := .uint4) (n := 139) (o := 1000)
    (o' := 3000) (scale := Ex.tenth) (zp := 7) (op := .add) (m0 := Ex.old) (m0' := Ex.old) (h := ⟨rfl, rfl, by decide +kernel, sz 139 1⟩)
    (h' := ⟨rfl, rfl, by decide +kernel, sz 139 2⟩) (hz := by wit) (hi := rfl) (hf := rfl)

end Verif.Props
