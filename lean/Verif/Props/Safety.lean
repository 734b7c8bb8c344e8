import Verif.Props.Examples
import Verif.Props.Sched
import Verif.Proofs.Leaves

/-!
# Memory safety of dequantize, alignment of streaming stores, termination: C11, C35, C41
-/

namespace Verif.Props
open Spec

section
variable {c : Ctx} {x : InBuf} {dtIn dtOut : DType} {n o : Nat} {scale τ : F32} {zp : ℤ} {mode : RoundMode} {op : ReduceOp} {m0 : Mem}

/-! ## C11 -/

/-- C11 is false of the code.  *Every* uint2 → f32 dequantize call on exactly matching spans whose
element count is a positive multiple of four reads outside its input span, under every schedule:
whenever all workers have stopped, one of them has stopped at an out-of-bounds read (on real
hardware: it read a byte the caller did not pass). -/
theorem C11_false_uint2_reads_past_input (h : DArgs c.threads x .uint2 .f32 n) (hx : x.size = bytes 2 n) (hn : 0 < n) (h4 : n % 4 = 0)
    (hz : ZpSub zp) :
    ∃ js, dequantize c x (bytes 2 n) .uint2 o (4 * n) .f32 scale zp op = .ok js ∧
      ∀ m0 k d, Reach (span o (4 * n)) ⟨js, m0⟩ k d → d.Stopped → .fail .oobRead ∈ d.jobs := by
  have hj := dequantize_jobs (c := c) (x := x) (o := o) (n := n) (dt := .uint2) (ft := .f32) (scale := scale) (zp := zp) (op := op) rfl h.sizes.addr
  refine ⟨_, hj, fun m0 k d hr hs => ?_⟩
  have hpos := h.sizes.pos
  have ht : c.threads - 1 < c.threads := by omega
  have key : ∃ p, (jobs c.isa c.threads x o ⟨.dequant, n, scale, zp, .uint2, .f32, .nearest, op, f0, c.fuse⟩)[c.threads - 1]? = some p ∧
      Leaves (fun r => r = .error .oobRead) p := by
    refine ⟨jobEntry c.isa x o ⟨.dequant, n, scale, zp, .uint2, .f32, .nearest, op, f0, c.fuse⟩ (c.threads - 1) c.threads, ?_, ?_⟩
    · simp [jobs, ht]
    · rw [jobEntry_eq ht h.sizes.split h.sizes.addr]
      have e1 : c.threads - 1 + 1 = c.threads := by omega
      have hpe : packElems (packedBits ⟨.dequant, n, scale, zp, .uint2, .f32, .nearest, op, f0, c.fuse⟩) = 4 := by simp [packedBits, packElems, DType.bits]
      have hcd : 4 ∣ cut 4 n c.threads (c.threads - 1) := cut_dvd (by omega)
      have hlt : cut 4 n c.threads (c.threads - 1) < n := by
        unfold cut
        rw [if_neg (by omega)]
        have : n * (c.threads - 1) / c.threads < n := by
          rw [Nat.div_lt_iff_lt_mul hpos]
          exact Nat.mul_lt_mul_of_pos_left (by omega) hn
        omega
      simp only [hpe, e1, cut_last]
      rw [if_pos hlt]
      have hsz : x.size = n / 4 := by rw [hx]; unfold bytes; omega
      have hdisp : ∀ off o' r, quantizeDispatch c.isa x off o' r ⟨.dequant, n, scale, zp, .uint2, .f32, .nearest, op, f0, c.fuse⟩ =
          dequantUint2 (putDq64 c.fuse.gen op o' scale zp) (putDq64 c.fuse.gen .set o' scale zp) x off r := fun _ _ _ => by cases op <;> rfl
      rw [hdisp]
      refine Leaves.dequantUint2_oob (by omega) ?_ (fun i q hq => Leaves.putDq64 rfl ?_)
      · simp only [DType.bits]; omega
      · unfold ZpSub at hz; unfold inI64; omega
  obtain ⟨p, hp, hl⟩ := Leaves.reach hr key
  have hm := List.mem_of_getElem? hp
  rcases hs p hm with rfl | ⟨f, rfl⟩
  · exact absurd hl (by simp [Leaves])
  · have : f = .oobRead := by simpa [Leaves] using hl
    rwa [this] at hm

/-- `C11_false_uint2_reads_past_input` applied to a concrete case. -/
example := C11_false_uint2_reads_past_input (c := Ex.c1) (x := Ex.codes) (n := 280) (o := 1000) (scale := Ex.tenth) (zp := 2) (op := .add)
    (h := by wit) (hx := by wit) (hn := by wit) (h4 := by wit) (hz := by wit)

/-- C11, what holds: with one more readable byte behind the input span for uint2 → f32 (and with no
further condition for the other dtype pairs), every access of every schedule is inside the spans and
the bytes outside the output span keep their values. -/
theorem C11_dequantize_in_spans_partial (h : DArgs c.threads x dtIn dtOut n) (hr : Readable dtIn dtOut n x.size) :
    Always OnlyUb (dequantize c x (bytes dtIn.bits n) dtIn o (dtOut.stride * n) dtOut scale zp op) (span o (dtOut.stride * n)) m0
      (fun m => ∀ a, (a < o ∨ o + dtOut.stride * n ≤ a) → m a = m0 a) := by
  obtain ⟨ft, rfl, hst⟩ := ft_of h.outFloat
  rw [hst]
  refine ⟨_, dequantize_jobs h.inQuant h.sizes.addr, ?_⟩
  have := dequantize_sched (E := OnlyUb) (c := c) (o := o) (m0 := m0) (scale := scale) (zp := zp) (op := op) onlyUb_oob h.inQuant h.size (readable_le h hr rfl) h.sizes (fun i _ => Or.inl onlyUb)
  exact ⟨this.safe, this.raceFree, this.progress, this.bounded, fun k d hr hd => (this.post k d hr hd).1.2.2⟩

/-- `C11_dequantize_in_spans_partial` applied to a concrete case. -/
example := C11_dequantize_in_spans_partial (c := Ex.c1) (x := Ex.codes) (dtIn := .uint4) (dtOut := .f32) (n := 139) (o := 1000) (scale := Ex.tenth)
    (zp := 7) (op := .add) (m0 := Ex.old) (h := by wit) (hr := by wit)

/-- C11 (fused): every access is inside the spans. -/
theorem C11_fused_in_spans (h : QArgs c.threads x dtIn dtOut n) :
    Always OnlyUb (fused c x dtIn o (dtIn.stride * n) dtOut scale zp mode op τ) (span o (dtIn.stride * n)) m0
      (fun m => ∀ a, (a < o ∨ o + dtIn.stride * n ≤ a) → m a = m0 a) := by
  obtain ⟨ft, rfl, hst⟩ := ft_of h.inFloat
  have hx : x.size = ft.size * n := by rw [← hst]; exact h.size
  rw [hst]
  refine ⟨_, fused_jobs h.outQuant hx, ?_⟩
  have := fused_sched (E := OnlyUb) (c := c) (o := o) (m0 := m0) (scale := scale) (zp := zp) (op := op) (τ := τ) (mode := mode) onlyUb_oob h.outQuant hx h.sizes (fun i _ => qStep_ok onlyUb) (fun _ _ => Or.inl onlyUb)
  exact ⟨this.safe, this.raceFree, this.progress, this.bounded, fun k d hr hd => (this.post k d hr hd).1.2.2⟩

/-- `C11_fused_in_spans` applied to a concrete case. -/
example := C11_fused_in_spans (c := Ex.c1) (x := Ex.many) (dtIn := .f32) (dtOut := .uint8) (n := 70) (o := 1000) (scale := Ex.tenth) (τ := Ex.quarter)
    (zp := 64) (mode := .nearest) (op := .add) (m0 := Ex.old) (h := by wit)

example : DArgs 3 (Ex.buf [0x1B, 0xE4]) .uint2 .f32 8 ∧ (Ex.buf [0x1B, 0xE4]).size = bytes 2 8 :=
  ⟨⟨rfl, rfl, by decide, by decide, by norm_num, by norm_num⟩, rfl⟩
example : Readable .uint2 .f32 8 (Ex.buf [0x1B, 0xE4, 0]).size ∧ Readable .uint4 .bf16 8 4 := by unfold Readable; decide

/-! ## C35 -/

/-- C35. Whatever the data, the output address, the slice offset, the kernel and the schedule: no
worker ever executes an aligned (streaming) vector store at a misaligned address.  A worker that
did would be in state `.fail .misaligned` (see `Simd.stream`). -/
theorem C35_streaming_stores_aligned (h : QArgs c.threads x dtIn dtOut n) :
    ∃ js, quantize c x dtIn o (bytes dtOut.bits n) dtOut scale zp mode τ = .ok js ∧
      ∀ k d, Reach (span o (bytes dtOut.bits n)) ⟨js, m0⟩ k d → .fail .misaligned ∉ d.jobs := by
  obtain ⟨js, e, _, g⟩ := quantize_ub (o := o) (scale := scale) (τ := τ) (zp := zp) (mode := mode) h m0
  refine ⟨js, e, fun k d hr hm => g.safe k d hr ⟨_, hm, Or.inl ⟨.misaligned, rfl, ?_⟩⟩⟩
  unfold OnlyUb; decide

/-- `C35_streaming_stores_aligned` applied to a concrete case. -/
example := C35_streaming_stores_aligned (c := Ex.c1) (x := Ex.many) (dtIn := .f32) (dtOut := .uint8) (n := 70) (o := 1000) (scale := Ex.tenth)
    (τ := Ex.quarter) (zp := 64) (mode := .nearest) (m0 := Ex.old) (h := by wit)

/-! ## C41 -/

/-- C41 (quantize). Under every schedule the call stops after a bounded number of steps, and no
worker is stuck in an endless loop. -/
theorem C41_quantize_terminates (h : QArgs c.threads x dtIn dtOut n) :
    ∃ js N, quantize c x dtIn o (bytes dtOut.bits n) dtOut scale zp mode τ = .ok js ∧
      ∀ k d, Reach (span o (bytes dtOut.bits n)) ⟨js, m0⟩ k d → k ≤ N ∧ .fail .diverge ∉ d.jobs ∧
        (¬ d.Stopped → ∃ d', Step (span o (bytes dtOut.bits n)) d d') := by
  obtain ⟨js, e, _, g⟩ := quantize_ub (o := o) (scale := scale) (τ := τ) (zp := zp) (mode := mode) h m0
  obtain ⟨N, hN⟩ := g.bounded
  refine ⟨js, N, e, fun k d hr => ⟨hN k d hr, fun hm => g.safe k d hr ⟨_, hm, Or.inl ⟨.diverge, rfl, ?_⟩⟩, g.progress k d hr⟩⟩
  unfold OnlyUb; decide

/-- `C41_quantize_terminates` applied to a concrete case. -/
example := C41_quantize_terminates (c := Ex.c1) (x := Ex.many) (dtIn := .f32) (dtOut := .uint8) (n := 70) (o := 1000) (scale := Ex.tenth)
    (τ := Ex.quarter) (zp := 64) (mode := .nearest) (m0 := Ex.old) (h := by wit)

/-- C41 (dequantize). -/
theorem C41_dequantize_terminates (h : DArgs c.threads x dtIn dtOut n) (hr : Readable dtIn dtOut n x.size) :
    ∃ js N, dequantize c x (bytes dtIn.bits n) dtIn o (dtOut.stride * n) dtOut scale zp op = .ok js ∧
      ∀ k d, Reach (span o (dtOut.stride * n)) ⟨js, m0⟩ k d → k ≤ N ∧ .fail .diverge ∉ d.jobs ∧
        (¬ d.Stopped → ∃ d', Step (span o (dtOut.stride * n)) d d') := by
  obtain ⟨js, e, g⟩ := C11_dequantize_in_spans_partial (o := o) (scale := scale) (zp := zp) (op := op) (m0 := m0) h hr
  obtain ⟨N, hN⟩ := g.bounded
  refine ⟨js, N, e, fun k d hr => ⟨hN k d hr, fun hm => g.safe k d hr ⟨_, hm, Or.inl ⟨.diverge, rfl, ?_⟩⟩, g.progress k d hr⟩⟩
  unfold OnlyUb; decide

/-- `C41_dequantize_terminates` applied to a concrete case. -/
example := C41_dequantize_terminates (c := Ex.c1) (x := Ex.codes) (dtIn := .uint4) (dtOut := .f32) (n := 139) (o := 1000) (scale := Ex.tenth) (zp := 7)
    (op := .add) (m0 := Ex.old) (h := by wit) (hr := by wit)

/-- C41 (fused). -/
theorem C41_fused_terminates (h : QArgs c.threads x dtIn dtOut n) :
    ∃ js N, fused c x dtIn o (dtIn.stride * n) dtOut scale zp mode op τ = .ok js ∧
      ∀ k d, Reach (span o (dtIn.stride * n)) ⟨js, m0⟩ k d → k ≤ N ∧ .fail .diverge ∉ d.jobs ∧
        (¬ d.Stopped → ∃ d', Step (span o (dtIn.stride * n)) d d') := by
  obtain ⟨js, e, g⟩ := C11_fused_in_spans (o := o) (scale := scale) (zp := zp) (op := op) (τ := τ) (mode := mode) (m0 := m0) h
  obtain ⟨N, hN⟩ := g.bounded
  refine ⟨js, N, e, fun k d hr => ⟨hN k d hr, fun hm => g.safe k d hr ⟨_, hm, Or.inl ⟨.diverge, rfl, ?_⟩⟩, g.progress k d hr⟩⟩
  unfold OnlyUb; decide

/-- `C41_fused_terminates` applied to a concrete case. -/
example := C41_fused_terminates (c := Ex.c1) (x := Ex.many) (dtIn := .f32) (dtOut := .uint8) (n := 70) (o := 1000) (scale := Ex.tenth)
    (τ := Ex.quarter) (zp := 64) (mode := .nearest) (op := .add) (m0 := Ex.old) (h := by wit)

end
end Verif.Props
