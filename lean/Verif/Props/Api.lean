import Verif.Props.Examples
import Verif.Props.Safety

/-!
# The calls as API: accepted arguments, C wrappers, repetition: C27, C28, C38, C45
-/

namespace Verif.Props
open Spec

section
variable {c : Ctx} {x : InBuf} {dtIn dtOut : DType} {n o outSize inSize numel : Nat} {scale τ : F32} {zp : ℤ} {mode : RoundMode} {op : ReduceOp} {m0 : Mem}
  {data : Nat → Nat}

/-! ## C27 -/

theorem packedNumel_eq (h : dtIn.isQuant = true) (hn : n + 3 < 2 ^ 64) : packedNumel n dtIn = .ok (bytes dtIn.bits n) := by
  cases dtIn <;> simp only [DType.isQuant, Bool.false_eq_true] at h <;> unfold packedNumel bytes <;>
    simp only [DType.bits] <;> norm_num <;> omega

theorem stride_cases (h : dtIn.isQuant = false) : (dtIn = .f32 ∧ dtIn.stride = 4) ∨ (dtIn = .bf16 ∧ dtIn.stride = 2) := by
  cases dtIn <;> simp [DType.isQuant, DType.stride] at *

theorem quant_stride (h : dtIn.isQuant = true) : dtIn.stride = 1 := by cases dtIn <;> simp [DType.isQuant, DType.stride] at *

/-- C27 (quantize). The call is accepted exactly for a float input type, a quantized output type and
an output span of `ceil(bits * numel / 8)` bytes; in every other case it aborts before a worker
starts, that is before anything is written. -/
theorem C27_quantize_accepts_iff (hx : x.size < 2 ^ 64) :
    ((dtIn.isQuant = false ∧ dtOut.isQuant = true ∧ outSize = bytes dtOut.bits (x.size / dtIn.stride)) →
      ∃ js, quantize c x dtIn o outSize dtOut scale zp mode τ = .ok js) ∧
    (¬ (dtIn.isQuant = false ∧ dtOut.isQuant = true ∧ outSize = bytes dtOut.bits (x.size / dtIn.stride)) →
      quantize c x dtIn o outSize dtOut scale zp mode τ = .error .panic) := by
  unfold quantize
  cases h1 : dtIn.isQuant
  swap
  · simp
  cases h2 : dtOut.isQuant
  · simp
  have hne : x.size / dtIn.stride + 3 < 2 ^ 64 := by rcases stride_cases h1 with ⟨_, h⟩ | ⟨_, h⟩ <;> rw [h] <;> omega
  have key : (if dtOut.bits = 8 then .ok (x.size / dtIn.stride * dtOut.stride)
      else (packedNumel (x.size / dtIn.stride) dtOut).map (· * dtOut.stride) : Except Fault Nat) = .ok (bytes dtOut.bits (x.size / dtIn.stride)) := by
    rw [packedNumel_eq h2 hne, quant_stride h2]
    split
    · rename_i h8; rw [h8]; simp only [bytes, mul_one]; congr 1; omega
    · simp [Except.map]
  simp only [key, Bool.not_true, Bool.false_eq_true, if_false, true_and]
  exact ⟨fun h => ⟨_, if_pos h⟩, fun h => if_neg h⟩

/-- `C27_quantize_accepts_iff` applied to a concrete case. -/
example := C27_quantize_accepts_iff (c := Ex.c1) (x := Ex.many) (dtIn := .f32) (dtOut := .uint8) (o := 1000) (outSize := 70) (scale := Ex.tenth)
    (τ := Ex.quarter) (zp := 64) (mode := .nearest) (hx := by wit)

/-- C27 (dequantize). -/
theorem C27_dequantize_accepts_iff (ho : outSize < 2 ^ 64) :
    ((dtIn.isQuant = true ∧ dtOut.isQuant = false ∧ inSize = bytes dtIn.bits (outSize / dtOut.stride)) →
      ∃ js, dequantize c x inSize dtIn o outSize dtOut scale zp op = .ok js) ∧
    (¬ (dtIn.isQuant = true ∧ dtOut.isQuant = false ∧ inSize = bytes dtIn.bits (outSize / dtOut.stride)) →
      dequantize c x inSize dtIn o outSize dtOut scale zp op = .error .panic) := by
  unfold dequantize
  cases h1 : dtIn.isQuant
  · simp
  cases h2 : dtOut.isQuant
  swap
  · simp
  have hne : outSize / dtOut.stride + 3 < 2 ^ 64 := by rcases stride_cases h2 with ⟨_, h⟩ | ⟨_, h⟩ <;> rw [h] <;> omega
  have key : ((packedNumel (outSize / dtOut.stride) dtIn).map (· * dtIn.stride) : Except Fault Nat) = .ok (bytes dtIn.bits (outSize / dtOut.stride)) := by
    rw [packedNumel_eq h1 hne, quant_stride h1]; simp [Except.map]
  simp only [key, Bool.not_true, Bool.false_eq_true, if_false, true_and]
  exact ⟨fun h => ⟨_, if_pos h⟩, fun h => if_neg h⟩

/-- `C27_dequantize_accepts_iff` applied to a concrete case. -/
example := C27_dequantize_accepts_iff (c := Ex.c1) (x := Ex.many) (dtIn := .f32) (dtOut := .uint8) (o := 1000) (outSize := 70) (inSize := 70)
    (scale := Ex.tenth) (zp := 64) (op := .add) (ho := by wit)

/-- C27 (fused). -/
theorem C27_fused_accepts_iff :
    ((dtIn.isQuant = false ∧ dtOut.isQuant = true ∧ x.size = outSize) →
      ∃ js, fused c x dtIn o outSize dtOut scale zp mode op τ = .ok js) ∧
    (¬ (dtIn.isQuant = false ∧ dtOut.isQuant = true ∧ x.size = outSize) →
      fused c x dtIn o outSize dtOut scale zp mode op τ = .error .panic) := by
  unfold fused
  cases h1 : dtIn.isQuant
  swap
  · simp
  cases h2 : dtOut.isQuant
  · simp
  simp only [Bool.not_true, Bool.false_eq_true, if_false, true_and]
  exact ⟨fun h => ⟨_, if_pos h⟩, fun h => if_neg h⟩

/-- C27: an accepted call never aborts later, under any schedule (quantize). -/
theorem C27_quantize_no_late_abort (h : QArgs c.threads x dtIn dtOut n) :
    ∃ js, quantize c x dtIn o (bytes dtOut.bits n) dtOut scale zp mode τ = .ok js ∧
      ∀ k d, Reach (span o (bytes dtOut.bits n)) ⟨js, m0⟩ k d → .fail .panic ∉ d.jobs ∧ .fail .divZero ∉ d.jobs := by
  obtain ⟨js, e, _, g⟩ := quantize_ub (o := o) (scale := scale) (τ := τ) (zp := zp) (mode := mode) h m0
  refine ⟨js, e, fun k d hr => ⟨fun hm => g.safe k d hr ⟨_, hm, Or.inl ⟨_, rfl, ?_⟩⟩, fun hm => g.safe k d hr ⟨_, hm, Or.inl ⟨_, rfl, ?_⟩⟩⟩⟩ <;>
    (unfold OnlyUb; decide)

/-- `C27_quantize_no_late_abort` applied to a concrete case. -/
example := C27_quantize_no_late_abort (c := Ex.c1) (x := Ex.many) (dtIn := .f32) (dtOut := .uint8) (n := 70) (o := 1000) (scale := Ex.tenth)
    (τ := Ex.quarter) (zp := 64) (mode := .nearest) (m0 := Ex.old) (h := by wit)

/-- C27: an accepted call never aborts later, under any schedule (dequantize). -/
theorem C27_dequantize_no_late_abort (h : DArgs c.threads x dtIn dtOut n) (hr : Readable dtIn dtOut n x.size) :
    ∃ js, dequantize c x (bytes dtIn.bits n) dtIn o (dtOut.stride * n) dtOut scale zp op = .ok js ∧
      ∀ k d, Reach (span o (dtOut.stride * n)) ⟨js, m0⟩ k d → .fail .panic ∉ d.jobs ∧ .fail .divZero ∉ d.jobs := by
  obtain ⟨js, e, g⟩ := C11_dequantize_in_spans_partial (o := o) (scale := scale) (zp := zp) (op := op) (m0 := m0) h hr
  refine ⟨js, e, fun k d hr => ⟨fun hm => g.safe k d hr ⟨_, hm, Or.inl ⟨_, rfl, ?_⟩⟩, fun hm => g.safe k d hr ⟨_, hm, Or.inl ⟨_, rfl, ?_⟩⟩⟩⟩ <;>
    (unfold OnlyUb; decide)

/-- `C27_dequantize_no_late_abort` applied to a concrete case. -/
example := C27_dequantize_no_late_abort (c := Ex.c1) (x := Ex.codes) (dtIn := .uint4) (dtOut := .f32) (n := 139) (o := 1000) (scale := Ex.tenth)
    (zp := 7) (op := .add) (m0 := Ex.old) (h := by wit) (hr := by wit)

/-- C27: an accepted call never aborts later, under any schedule (fused). -/
theorem C27_fused_no_late_abort (h : QArgs c.threads x dtIn dtOut n) :
    ∃ js, fused c x dtIn o (dtIn.stride * n) dtOut scale zp mode op τ = .ok js ∧
      ∀ k d, Reach (span o (dtIn.stride * n)) ⟨js, m0⟩ k d → .fail .panic ∉ d.jobs ∧ .fail .divZero ∉ d.jobs := by
  obtain ⟨js, e, g⟩ := C11_fused_in_spans (o := o) (scale := scale) (zp := zp) (op := op) (τ := τ) (mode := mode) (m0 := m0) h
  refine ⟨js, e, fun k d hr => ⟨fun hm => g.safe k d hr ⟨_, hm, Or.inl ⟨_, rfl, ?_⟩⟩, fun hm => g.safe k d hr ⟨_, hm, Or.inl ⟨_, rfl, ?_⟩⟩⟩⟩ <;>
    (unfold OnlyUb; decide)

/-- `C27_fused_no_late_abort` applied to a concrete case. -/
example := C27_fused_no_late_abort (c := Ex.c1) (x := Ex.many) (dtIn := .f32) (dtOut := .uint8) (n := 70) (o := 1000) (scale := Ex.tenth)
    (τ := Ex.quarter) (zp := 64) (mode := .nearest) (op := .add) (m0 := Ex.old) (h := by wit)

example : (Ex.xs).size = 20 ∧ DType.uint4.isQuant = true ∧ 3 = bytes DType.uint4.bits (20 / DType.f32.stride) := by decide

/-! ## C28, C45: the C wrappers -/

/-- C28 (quantize). The C call on `numel` elements is the C++ call on the spans of `numel` elements,
and it passes the size assertions. -/
theorem C28_capi_quantize (h1 : dtIn.isQuant = false) (h2 : dtOut.isQuant = true) (hn : dtIn.stride * numel < 2 ^ 64) :
    capiQuantize c data dtIn o dtOut numel scale zp mode τ =
      quantize c ⟨dtIn.stride * numel, data⟩ dtIn o (bytes dtOut.bits numel) dtOut scale zp mode τ ∧
    ∃ js, capiQuantize c data dtIn o dtOut numel scale zp mode τ = .ok js := by
  have hlt : numel + 3 < 2 ^ 64 := by rcases stride_cases h1 with ⟨_, h⟩ | ⟨_, h⟩ <;> rw [h] at hn <;> omega
  have hb : capiBytes numel dtOut = .ok (bytes dtOut.bits numel) := by
    unfold capiBytes
    rw [packedNumel_eq h2 hlt, quant_stride h2]
    have h64 : bytes dtOut.bits numel < 2 ^ 64 := by
      cases dtOut <;> simp only [DType.isQuant, Bool.false_eq_true] at h2 <;> simp only [bytes, DType.bits] <;> omega
    split
    · rename_i h8; rw [h8] at h64 ⊢; simp only [bytes, mul_one] at *; congr 1; omega
    · simp only [Except.map, mul_one]; rw [Nat.mod_eq_of_lt h64]
  have e : capiQuantize c data dtIn o dtOut numel scale zp mode τ =
      quantize c ⟨dtIn.stride * numel, data⟩ dtIn o (bytes dtOut.bits numel) dtOut scale zp mode τ := by
    unfold capiQuantize
    rw [hb, Nat.mul_comm numel, Nat.mod_eq_of_lt hn]
  refine ⟨e, ?_⟩
  rw [e]
  refine (C27_quantize_accepts_iff hn).1 ⟨h1, h2, ?_⟩
  simp only
  rw [Nat.mul_div_cancel_left]
  rcases stride_cases h1 with ⟨_, h⟩ | ⟨_, h⟩ <;> rw [h] <;> norm_num

/-- `C28_capi_quantize` applied to a concrete case. -/
example := C28_capi_quantize (c := Ex.c1) (dtIn := .f32) (dtOut := .uint8) (o := 1000) (numel := 70) (scale := Ex.tenth) (τ := Ex.quarter) (zp := 64)
    (mode := .nearest) (data := Ex.many.data) (h1 := by wit) (h2 := by wit) (hn := by wit)

/-- C28 (dequantize). -/
theorem C28_capi_dequantize (h1 : dtIn.isQuant = true) (h2 : dtOut.isQuant = false) (hn : dtOut.stride * numel < 2 ^ 64) :
    capiDequantize c x dtIn o dtOut numel scale zp op =
      dequantize c x (bytes dtIn.bits numel) dtIn o (dtOut.stride * numel) dtOut scale zp op ∧
    ∃ js, capiDequantize c x dtIn o dtOut numel scale zp op = .ok js := by
  have hlt : numel + 3 < 2 ^ 64 := by rcases stride_cases h2 with ⟨_, h⟩ | ⟨_, h⟩ <;> rw [h] at hn <;> omega
  have hb : capiBytes numel dtIn = .ok (bytes dtIn.bits numel) := by
    unfold capiBytes
    rw [packedNumel_eq h1 hlt, quant_stride h1]
    have h64 : bytes dtIn.bits numel < 2 ^ 64 := by
      cases dtIn <;> simp only [DType.isQuant, Bool.false_eq_true] at h1 <;> simp only [bytes, DType.bits] <;> omega
    split
    · rename_i h8; rw [h8] at h64 ⊢; simp only [bytes, mul_one] at *; congr 1; omega
    · simp only [Except.map, mul_one]; rw [Nat.mod_eq_of_lt h64]
  have e : capiDequantize c x dtIn o dtOut numel scale zp op =
      dequantize c x (bytes dtIn.bits numel) dtIn o (dtOut.stride * numel) dtOut scale zp op := by
    unfold capiDequantize
    rw [hb, Nat.mul_comm numel, Nat.mod_eq_of_lt hn]
  refine ⟨e, ?_⟩
  rw [e]
  refine (C27_dequantize_accepts_iff hn).1 ⟨h1, h2, ?_⟩
  rw [Nat.mul_div_cancel_left]
  rcases stride_cases h2 with ⟨_, h⟩ | ⟨_, h⟩ <;> rw [h] <;> norm_num

/-- `C28_capi_dequantize` applied to a concrete case. -/
example := C28_capi_dequantize (c := Ex.c1) (x := Ex.codes) (dtIn := .uint8) (dtOut := .bf16) (o := 1000) (numel := 70) (scale := Ex.tenth) (zp := 64)
    (op := .add) (h1 := by wit) (h2 := by wit) (hn := by wit)

/-- C27 is false of the C API: a float output type makes `piquant_quantize` divide by zero before
the assertion that should reject it, for every element count. -/
theorem C27_false_capi_quantize_float_target (hout : dtOut.isQuant = false) :
    capiQuantize c data dtIn o dtOut numel scale zp mode τ = .error .divZero := by
  unfold capiQuantize capiBytes packedNumel
  cases dtOut <;> simp only [DType.isQuant, Bool.true_eq_false, reduceCtorEq] at hout <;> simp [DType.bits, Except.map]

/-- `C27_false_capi_quantize_float_target` applied to a concrete case. -/
example := C27_false_capi_quantize_float_target (c := Ex.c1) (dtIn := .f32) (dtOut := .bf16) (o := 1000) (numel := 70) (scale := Ex.tenth)
    (τ := Ex.quarter) (zp := 64) (mode := .nearest) (data := Ex.many.data) (hout := by wit)

/-- C27 is false of the C API: so does `piquant_dequantize` with a float input type. -/
theorem C27_false_capi_dequantize_float_source (hin : dtIn.isQuant = false) :
    capiDequantize c x dtIn o dtOut numel scale zp op = .error .divZero := by
  unfold capiDequantize capiBytes packedNumel
  cases dtIn <;> simp only [DType.isQuant, Bool.true_eq_false, reduceCtorEq] at hin <;> simp [DType.bits, Except.map]

/-- `C27_false_capi_dequantize_float_source` applied to a concrete case. -/
example := C27_false_capi_dequantize_float_source (c := Ex.c1) (x := Ex.many) (dtIn := .f32) (dtOut := .uint8) (o := 1000) (numel := 70)
    (scale := Ex.tenth) (zp := 64) (op := .add) (hin := by wit)

/-- C27 (C API), what holds: with a quantized output type, `piquant_quantize` aborts cleanly on an
illegal input type. -/
theorem C27_capi_quantize_rejects_partial (hin : dtIn.isQuant = true) (hout : dtOut.isQuant = true) :
    capiQuantize c data dtIn o dtOut numel scale zp mode τ = .error .panic := by
  have hp : ∃ v, capiBytes numel dtOut = .ok v := by
    unfold capiBytes packedNumel
    cases dtOut <;> simp [DType.isQuant] at hout <;> simp [DType.bits, Except.map]
  obtain ⟨v, hv⟩ := hp
  unfold capiQuantize quantize
  rw [hv]; simp [hin]

/-- `C27_capi_quantize_rejects_partial` applied to a concrete case. -/
example := C27_capi_quantize_rejects_partial (c := Ex.c1) (dtIn := .uint8) (dtOut := .uint4) (o := 1000) (numel := 70) (scale := Ex.tenth)
    (τ := Ex.quarter) (zp := 64) (mode := .nearest) (data := Ex.many.data) (hin := by wit) (hout := by wit)

/-- C27 (C API), what holds: with a quantized input type, `piquant_dequantize` aborts cleanly on an
illegal output type. -/
theorem C27_capi_dequantize_rejects_partial (hin : dtIn.isQuant = true) (hout : dtOut.isQuant = true) :
    capiDequantize c x dtIn o dtOut numel scale zp op = .error .panic := by
  have hp : ∃ v, capiBytes numel dtIn = .ok v := by
    unfold capiBytes packedNumel
    cases dtIn <;> simp [DType.isQuant] at hin <;> simp [DType.bits, Except.map]
  obtain ⟨v, hv⟩ := hp
  unfold capiDequantize dequantize
  rw [hv]; simp [hin, hout]

/-- `C27_capi_dequantize_rejects_partial` applied to a concrete case. -/
example := C27_capi_dequantize_rejects_partial (c := Ex.c1) (x := Ex.many) (dtIn := .uint8) (dtOut := .uint4) (o := 1000) (numel := 70)
    (scale := Ex.tenth) (zp := 64) (op := .add) (hin := by wit) (hout := by wit)

/-- C45 (quantize). An element count whose byte size does not fit `size_t` is rejected by
`piquant_quantize`: although the sizes wrap around, the call aborts before anything is written. -/
theorem C45_capi_quantize_overflow_aborts (h1 : dtIn.isQuant = false) (h2 : dtOut.isQuant = true) (hn : numel < 2 ^ 64)
    (hov : 2 ^ 64 ≤ dtIn.stride * numel) :
    capiQuantize c data dtIn o dtOut numel scale zp mode τ = .error .panic := by
  unfold capiQuantize
  have hb : ∃ v, capiBytes numel dtOut = .ok v ∧ v ≠ bytes dtOut.bits (numel * dtIn.stride % 2 ^ 64 / dtIn.stride) := by
    unfold capiBytes packedNumel
    rcases stride_cases h1 with ⟨_, h⟩ | ⟨_, h⟩ <;> rw [h] at hov ⊢ <;>
    cases dtOut <;> simp only [DType.isQuant, Bool.false_eq_true] at h2 <;> simp only [DType.bits, DType.stride, bytes, Except.map] <;> norm_num <;> omega
  obtain ⟨v, hv, hne⟩ := hb
  rw [hv]
  refine (C27_quantize_accepts_iff (by simp only; omega)).2 ?_
  rintro ⟨_, _, h⟩
  exact hne h

/-- `C45_capi_quantize_overflow_aborts` applied to a concrete case. -/
example := C45_capi_quantize_overflow_aborts (c := Ex.c1) (dtIn := .f32) (dtOut := .uint8) (o := 1000) (numel := (2 ^ 63 + 1)) (scale := Ex.tenth)
    (τ := Ex.quarter) (zp := 64) (mode := .nearest) (data := Ex.many.data) (h1 := by wit) (h2 := by wit) (hn := by wit) (hov := by wit)

/-- C45 (dequantize). -/
theorem C45_capi_dequantize_overflow_aborts (h1 : dtIn.isQuant = true) (h2 : dtOut.isQuant = false) (hn : numel < 2 ^ 64)
    (hov : 2 ^ 64 ≤ dtOut.stride * numel) :
    capiDequantize c x dtIn o dtOut numel scale zp op = .error .panic := by
  unfold capiDequantize
  have hb : ∃ v, capiBytes numel dtIn = .ok v ∧ v ≠ bytes dtIn.bits (numel * dtOut.stride % 2 ^ 64 / dtOut.stride) := by
    unfold capiBytes packedNumel
    rcases stride_cases h2 with ⟨_, h⟩ | ⟨_, h⟩ <;> rw [h] at hov ⊢ <;>
    cases dtIn <;> simp only [DType.isQuant, Bool.false_eq_true] at h1 <;> simp only [DType.bits, DType.stride, bytes, Except.map] <;> norm_num <;> omega
  obtain ⟨v, hv, hne⟩ := hb
  rw [hv]
  refine (C27_dequantize_accepts_iff (Nat.mod_lt _ (by norm_num))).2 ?_
  rintro ⟨_, _, h⟩
  exact hne h

/-- `C45_capi_dequantize_overflow_aborts` applied to a concrete case. -/
example := C45_capi_dequantize_overflow_aborts (c := Ex.c1) (x := Ex.codes) (dtIn := .uint8) (dtOut := .f32) (o := 1000) (numel := (2 ^ 63 + 1))
    (scale := Ex.tenth) (zp := 64) (op := .add) (h1 := by wit) (h2 := by wit) (hn := by wit) (hov := by wit)

example : DType.f32.stride * 1001 < 2 ^ 64 ∧ 2 ^ 64 ≤ DType.f32.stride * (2 ^ 62 + 1) ∧ 2 ^ 62 + 1 < 2 ^ 64 := by decide
example : Ex.result (capiQuantize ⟨.avx2, 2, .none⟩ Ex.xs.data .f32 100 .uint4 5 Ex.half 8 .nearest f0) 100 3 Ex.old = .ok [58, 249, 15] := by decide +kernel

/-! ## C38 -/

/-- C38 (dequantize). A finished dequantize(SET) call has written every byte of the output span with a
value that depends on the arguments only, not on the previous contents, and nothing else. -/
theorem C38_dequantize_set_overwrites (h : DArgs c.threads x dtIn dtOut n) (hr : Readable dtIn dtOut n x.size) :
    ∃ out : Nat → Nat, ∀ m0, Always OnlyUb (dequantize c x (bytes dtIn.bits n) dtIn o (dtOut.stride * n) dtOut scale zp .set) (span o (dtOut.stride * n)) m0
        (fun m => (∀ j, j < dtOut.stride * n → m (o + j) = out j) ∧ ∀ a, (a < o ∨ o + dtOut.stride * n ≤ a) → m a = m0 a) := by
  obtain ⟨ft, rfl, hst⟩ := ft_of h.outFloat
  rw [hst]
  have hu := fun m0 => dequantize_sched (E := OnlyUb) (c := c) (o := o) (m0 := m0) (scale := scale) (zp := zp) (op := .set) onlyUb_oob h.inQuant h.size (readable_le h hr rfl) h.sizes (fun i _ => Or.inl onlyUb)
  have hj := dequantize_jobs (c := c) (x := x) (o := o) (ft := ft) (scale := scale) (zp := zp) (op := .set) h.inQuant h.sizes.addr
  obtain ⟨out, ho⟩ := overwrites (o := o) (len := ft.size * n) (NoRd.jobs (Or.inr rfl)) (fun m0 => ⟨(hu m0).safe, (hu m0).raceFree, (hu m0).progress, (hu m0).bounded,
    fun k d hr hd => ⟨((hu m0).post k d hr hd).1.2.1, ((hu m0).post k d hr hd).2⟩⟩)
  exact ⟨out, fun m0 => ⟨_, hj, (hu m0).safe, (hu m0).raceFree, (hu m0).progress, (hu m0).bounded,
    fun k d hr hd => ⟨(ho m0).post k d hr hd, ((hu m0).post k d hr hd).1.2.2⟩⟩⟩

/-- `C38_dequantize_set_overwrites` applied to a concrete case. -/
example := C38_dequantize_set_overwrites (c := Ex.c1) (x := Ex.codes) (dtIn := .uint4) (dtOut := .f32) (n := 139) (o := 1000) (scale := Ex.tenth)
    (zp := 7) (h := by wit) (hr := by wit)

/-- C38 (fused SET). -/
theorem C38_fused_set_overwrites (h : QArgs c.threads x dtIn dtOut n) :
    ∃ out : Nat → Nat, ∀ m0, Always OnlyUb (fused c x dtIn o (dtIn.stride * n) dtOut scale zp mode .set τ) (span o (dtIn.stride * n)) m0
        (fun m => (∀ j, j < dtIn.stride * n → m (o + j) = out j) ∧ ∀ a, (a < o ∨ o + dtIn.stride * n ≤ a) → m a = m0 a) := by
  obtain ⟨ft, rfl, hst⟩ := ft_of h.inFloat
  have hx : x.size = ft.size * n := by rw [← hst]; exact h.size
  rw [hst]
  have hu := fun m0 => fused_sched (E := OnlyUb) (c := c) (o := o) (m0 := m0) (scale := scale) (zp := zp) (op := .set) (τ := τ) (mode := mode) onlyUb_oob h.outQuant hx h.sizes (fun i _ => qStep_ok onlyUb) (fun _ _ => Or.inl onlyUb)
  have hj := fused_jobs (c := c) (o := o) (scale := scale) (zp := zp) (op := .set) (τ := τ) (mode := mode) h.outQuant hx
  obtain ⟨out, ho⟩ := overwrites (o := o) (len := ft.size * n) (NoRd.jobs (Or.inr rfl)) (fun m0 => ⟨(hu m0).safe, (hu m0).raceFree, (hu m0).progress, (hu m0).bounded,
    fun k d hr hd => ⟨((hu m0).post k d hr hd).1.2.1, ((hu m0).post k d hr hd).2⟩⟩)
  exact ⟨out, fun m0 => ⟨_, hj, (hu m0).safe, (hu m0).raceFree, (hu m0).progress, (hu m0).bounded,
    fun k d hr hd => ⟨(ho m0).post k d hr hd, ((hu m0).post k d hr hd).1.2.2⟩⟩⟩

/-- `C38_fused_set_overwrites` applied to a concrete case. -/
example := C38_fused_set_overwrites (c := Ex.c1) (x := Ex.many) (dtIn := .f32) (dtOut := .uint8) (n := 70) (o := 1000) (scale := Ex.tenth)
    (τ := Ex.quarter) (zp := 64) (mode := .nearest) (h := by wit)

theorem again {call : Except Fault (List (Prog Unit))} {len : Nat} {out : Nat → Nat}
    (h : ∀ m0, Always OnlyUb call (span o len) m0 (fun m => (∀ j, j < len → m (o + j) = out j) ∧ ∀ a, (a < o ∨ o + len ≤ a) → m a = m0 a)) (m0 : Mem) :
    Always OnlyUb call (span o len) m0 (fun m => Always OnlyUb call (span o len) m (fun m' => m' = m)) := by
  refine (h m0).mono (fun _ h => h) (fun m hm => (h m).mono (fun _ h => h) (fun m' hm' => ?_))
  funext a
  by_cases ha : a < o ∨ o + len ≤ a
  · exact hm'.2 a ha
  · have e : a = o + (a - o) := by omega
    rw [e, hm'.1 _ (by omega), hm.1 _ (by omega)]

/-- C38. Repeating a quantize call (nearest, or stochastic with the same threshold) with the same
arguments leaves the memory unchanged, whatever the schedules of the two calls. -/
theorem C38_quantize_idempotent (h : QArgs c.threads x dtIn dtOut n) :
    Always OnlyUb (quantize c x dtIn o (bytes dtOut.bits n) dtOut scale zp mode τ) (span o (bytes dtOut.bits n)) m0 (fun m =>
      Always OnlyUb (quantize c x dtIn o (bytes dtOut.bits n) dtOut scale zp mode τ) (span o (bytes dtOut.bits n)) m (fun m' => m' = m)) := by
  obtain ⟨out, _, g⟩ := C04_quantize_writes_exactly_span (o := o) (scale := scale) (τ := τ) (zp := zp) (mode := mode) h
  exact again g m0

/-- `C38_quantize_idempotent` applied to a concrete case. -/
example := C38_quantize_idempotent (c := Ex.c1) (x := Ex.many) (dtIn := .f32) (dtOut := .uint8) (n := 70) (o := 1000) (scale := Ex.tenth)
    (τ := Ex.quarter) (zp := 64) (mode := .nearest) (m0 := Ex.old) (h := by wit)

/-- C38. Repeating a dequantize(SET) call leaves the memory unchanged. -/
theorem C38_dequantize_idempotent (h : DArgs c.threads x dtIn dtOut n) (hr : Readable dtIn dtOut n x.size) :
    Always OnlyUb (dequantize c x (bytes dtIn.bits n) dtIn o (dtOut.stride * n) dtOut scale zp .set) (span o (dtOut.stride * n)) m0 (fun m =>
      Always OnlyUb (dequantize c x (bytes dtIn.bits n) dtIn o (dtOut.stride * n) dtOut scale zp .set) (span o (dtOut.stride * n)) m (fun m' => m' = m)) := by
  obtain ⟨out, g⟩ := C38_dequantize_set_overwrites (o := o) (scale := scale) (zp := zp) h hr
  exact again g m0

/-- `C38_dequantize_idempotent` applied to a concrete case. -/
example := C38_dequantize_idempotent (c := Ex.c1) (x := Ex.codes) (dtIn := .uint4) (dtOut := .f32) (n := 139) (o := 1000) (scale := Ex.tenth) (zp := 7)
    (m0 := Ex.old) (h := by wit) (hr := by wit)

/-- C38. Repeating a fused SET call leaves the memory unchanged. -/
theorem C38_fused_idempotent (h : QArgs c.threads x dtIn dtOut n) :
    Always OnlyUb (fused c x dtIn o (dtIn.stride * n) dtOut scale zp mode .set τ) (span o (dtIn.stride * n)) m0 (fun m =>
      Always OnlyUb (fused c x dtIn o (dtIn.stride * n) dtOut scale zp mode .set τ) (span o (dtIn.stride * n)) m (fun m' => m' = m)) := by
  obtain ⟨out, g⟩ := C38_fused_set_overwrites (o := o) (scale := scale) (τ := τ) (zp := zp) (mode := mode) h
  exact again g m0

/-- `C38_fused_idempotent` applied to a concrete case. -/
example := C38_fused_idempotent (c := Ex.c1) (x := Ex.many) (dtIn := .f32) (dtOut := .uint8) (n := 70) (o := 1000) (scale := Ex.tenth)
    (τ := Ex.quarter) (zp := 64) (mode := .nearest) (m0 := Ex.old) (h := by wit)

end

example : Ex.result (dequantize ⟨.sse42, 2, .none⟩ (Ex.buf [0x1B, 0xE4]) 2 .uint4 100 16 .f32 Ex.half 8 .set) 100 16 Ex.old =
    Ex.result (dequantize ⟨.sse42, 2, .none⟩ (Ex.buf [0x1B, 0xE4]) 2 .uint4 100 16 .f32 Ex.half 8 .set) 100 16 (fun _ => 0) := by decide +kernel

end Verif.Props
