import Verif.Proofs.Exact
import Verif.Props.Fused
import Verif.Props.LargeZp
import Verif.Props.Isolate

/-!
# C118: the complete specification of stochastic quantization and of the fused call

Any data (NaN, infinities, any magnitude), any scale, any 64-bit zero point, any CPU, thread count, output
address and schedule: the exact result, and exactly when the call runs without undefined arithmetic.
-/

namespace Verif.Props
open Verif Spec

variable {c c' : Ctx} {x : InBuf} {dtIn dtOut : DType} {n o o' : Nat} {scale τ : F32} {zp : ℤ} {mode : RoundMode} {op : ReduceOp} {m0 : Mem}

/-- The result of a finished stochastic quantize call with threshold `τ`. -/
def Stochastic (x : InBuf) (dtIn dtOut : DType) (n o : Nat) (scale τ : F32) (zp : ℤ) (m0 m : Mem) : Prop :=
  (∀ i, i < n → Ok64 .stochastic τ (scaled (elem dtIn x.data 0 i) scale) zp ∧
    (code dtOut.bits m o i : ℤ) = code64 .stochastic dtOut.bits τ (scaled (elem dtIn x.data 0 i) scale) zp) ∧
  (∀ t, dtOut.bits * n ≤ t → t < 8 * bytes dtOut.bits n → bit m o t = 0) ∧
  (∀ a, (a < o ∨ o + bytes dtOut.bits n ≤ a) → m a = m0 a)

/-- The result of a finished fused call on a float32 tensor: the code that would be stored, decoded, and stored in
or added to the old element. -/
def FusedF32 (c : Ctx) (x : InBuf) (dt : DType) (n o : Nat) (scale τ : F32) (zp : ℤ) (mode : RoundMode) (op : ReduceOp) (m0 m : Mem) : Prop :=
  (∀ i, i < n → FusedOk mode dt.bits τ (scaled (elem .f32 x.data 0 i) scale) zp ∧
    f32At m (o + 4 * i) = store op c.fuse.gen (f32At m0 (o + 4 * i)) scale zp
      (code64 mode dt.bits τ (scaled (elem .f32 x.data 0 i) scale) zp).toNat) ∧
  (∀ a, (a < o ∨ o + 4 * n ≤ a) → m a = m0 a)

/-- ... on a bf16 tensor: everything after the rounding is IEEE bf16 arithmetic. -/
def FusedBf16 (x : InBuf) (dt : DType) (n o : Nat) (scale τ : F32) (zp : ℤ) (mode : RoundMode) (op : ReduceOp) (m0 m : Mem) : Prop :=
  (∀ i, i < n → FusedOk mode dt.bits τ (scaled (elem .bf16 x.data 0 i) scale) zp ∧
    u16At m (o + 2 * i) = storeB op (u16At m0 (o + 2 * i)) scale zp
      (code64 mode dt.bits τ (scaled (elem .bf16 x.data 0 i) scale) zp).toNat) ∧
  (∀ a, (a < o ∨ o + 2 * n ≤ a) → m a = m0 a)

/-! ## Stochastic quantization -/

/-- C118, every finished stochastic call: the arithmetic was defined on every element, every element has exactly
the specified code, the padding bits are zero and no other byte changed. -/
theorem C118_stochastic_finished (h : QArgs c.threads x dtIn dtOut n) (hτ : Threshold .stochastic τ) :
    Always OnlyUb (quantize c x dtIn o (bytes dtOut.bits n) dtOut scale zp .stochastic τ) (span o (bytes dtOut.bits n)) m0
      (Stochastic x dtIn dtOut n o scale τ zp m0) := by
  obtain ⟨ft, rfl, hst⟩ := ft_of h.inFloat
  have hx : x.size = ft.size * n := by rw [← hst]; exact h.size
  refine ⟨_, quantize_jobs h.outQuant h.sizes.addr hx, ?_⟩
  have := stochastic_sched (E := OnlyUb) (c := c) (o := o) (m0 := m0) (scale := scale) (τ := τ) (zp := zp) onlyUb_oob h.outQuant hx h.sizes
    (fun i _ => scalarStep_ok (E := OnlyUb) rfl _) (fun _ => scalarStep_ok (E := OnlyUb) rfl _)
  refine ⟨this.safe, this.raceFree, this.progress, this.bounded, fun k d hr hd => ?_⟩
  obtain ⟨h1, h2, h3⟩ := this.post k d hr hd
  exact ⟨fun i hi => (qStep_ret h.outQuant (fun _ => hτ rfl)).mp (h1 i hi), h2, h3⟩

/-- C118, when a stochastic call is free of faults. -/
theorem C118_stochastic_fault_free (h : QArgs c.threads x dtIn dtOut n) (hτ : Threshold .stochastic τ) (hz : IsI64 zp)
    (hd : ∀ i, i < n → Ok64 .stochastic τ (scaled (elem dtIn x.data 0 i) scale) zp) :
    Always NoFault (quantize c x dtIn o (bytes dtOut.bits n) dtOut scale zp .stochastic τ) (span o (bytes dtOut.bits n)) m0
      (Stochastic x dtIn dtOut n o scale τ zp m0) := by
  obtain ⟨ft, rfl, hst⟩ := ft_of h.inFloat
  have hx : x.size = ft.size * n := by rw [← hst]; exact h.size
  have hq := h.outQuant
  refine ⟨_, quantize_jobs hq h.sizes.addr hx, ?_⟩
  have := stochastic_sched (E := NoFault) (c := c) (o := o) (m0 := m0) (scale := scale) (τ := τ) (zp := zp) noFault_oob hq hx h.sizes
    (fun i hi => Or.inl ⟨_, (qStep_ret (mode := .stochastic) hq (fun _ => hτ rfl)
      (q := (code64 .stochastic dtOut.bits τ (scaled (x.elem ft 0 i) scale) zp).toNat)).mpr
      ⟨by rw [elem_spec]; exact hd i hi, Int.toNat_of_nonneg (le_max_left _ _)⟩⟩)
    (fun hn => by
      have h0 : 0 < n := by
        rcases Nat.eq_zero_or_pos n with h0 | h0
        · subst h0; simp at hn
        · exact h0
      exact Or.inl (pad_stoch (hd 0 h0) hz (hτ rfl)))
  refine ⟨this.safe, this.raceFree, this.progress, this.bounded, fun k d hr hdn => ?_⟩
  obtain ⟨h1, h2, h3⟩ := this.post k d hr hdn
  exact ⟨fun i hi => (qStep_ret hq (fun _ => hτ rfl)).mp (h1 i hi), h2, h3⟩

/-- C118, the condition is necessary: one bad element and no execution of the call finishes. -/
theorem C118_stochastic_faults (h : QArgs c.threads x dtIn dtOut n) (hτ : Threshold .stochastic τ) {i : Nat} (hi : i < n)
    (hu : ¬ Ok64 .stochastic τ (scaled (elem dtIn x.data 0 i) scale) zp) :
    Always OnlyUb (quantize c x dtIn o (bytes dtOut.bits n) dtOut scale zp .stochastic τ) (span o (bytes dtOut.bits n)) m0
      (fun _ => False) :=
  (C118_stochastic_finished h hτ).mono (fun _ h => h) (fun _ hm => hu (hm.1 i hi).1)

/-! ## The fused call -/

/-- C118, every finished fused call on a float32 tensor. -/
theorem C118_fused_f32_finished (h : QArgs c.threads x .f32 dtOut n) (hτ : Threshold mode τ) :
    Always OnlyUb (fused c x .f32 o (4 * n) dtOut scale zp mode op τ) (span o (4 * n)) m0
      (FusedF32 c x dtOut n o scale τ zp mode op m0) := by
  have hx : x.size = FT.f32.size * n := h.size
  exact ⟨_, fused_jobs (ft := .f32) h.outQuant hx, fusedExact_sched (E := OnlyUb) (ft := .f32) onlyUb_oob h.outQuant hx h.sizes hτ (fun _ _ => Or.inl onlyUb)⟩

/-- C118, when a fused call on a float32 tensor is free of faults. -/
theorem C118_fused_f32_fault_free (h : QArgs c.threads x .f32 dtOut n) (hτ : Threshold mode τ)
    (hd : ∀ i, i < n → FusedOk mode dtOut.bits τ (scaled (elem .f32 x.data 0 i) scale) zp) :
    Always NoFault (fused c x .f32 o (4 * n) dtOut scale zp mode op τ) (span o (4 * n)) m0
      (FusedF32 c x dtOut n o scale τ zp mode op m0) := by
  have hx : x.size = FT.f32.size * n := h.size
  exact ⟨_, fused_jobs (ft := .f32) h.outQuant hx, fusedExact_sched (E := NoFault) (ft := .f32) noFault_oob h.outQuant hx h.sizes hτ (fun i hi => Or.inr (hd i hi))⟩

/-- C118, every finished fused call on a bf16 tensor. -/
theorem C118_fused_bf16_finished (h : QArgs c.threads x .bf16 dtOut n) (hτ : Threshold mode τ) :
    Always OnlyUb (fused c x .bf16 o (2 * n) dtOut scale zp mode op τ) (span o (2 * n)) m0
      (FusedBf16 x dtOut n o scale τ zp mode op m0) := by
  have hx : x.size = FT.bf16.size * n := h.size
  exact ⟨_, fused_jobs (ft := .bf16) h.outQuant hx, fusedExact_sched (E := OnlyUb) (ft := .bf16) onlyUb_oob h.outQuant hx h.sizes hτ (fun _ _ => Or.inl onlyUb)⟩

/-- C118, when a fused call on a bf16 tensor is free of faults. -/
theorem C118_fused_bf16_fault_free (h : QArgs c.threads x .bf16 dtOut n) (hτ : Threshold mode τ)
    (hd : ∀ i, i < n → FusedOk mode dtOut.bits τ (scaled (elem .bf16 x.data 0 i) scale) zp) :
    Always NoFault (fused c x .bf16 o (2 * n) dtOut scale zp mode op τ) (span o (2 * n)) m0
      (FusedBf16 x dtOut n o scale τ zp mode op m0) := by
  have hx : x.size = FT.bf16.size * n := h.size
  exact ⟨_, fused_jobs (ft := .bf16) h.outQuant hx, fusedExact_sched (E := NoFault) (ft := .bf16) noFault_oob h.outQuant hx h.sizes hτ (fun i hi => Or.inr (hd i hi))⟩

/-- C118, the condition is necessary for the fused call too (both tensor types). -/
theorem C118_fused_faults (h : QArgs c.threads x dtIn dtOut n) (hτ : Threshold mode τ) {i : Nat} (hi : i < n)
    (hu : ¬ FusedOk mode dtOut.bits τ (scaled (elem dtIn x.data 0 i) scale) zp) :
    Always OnlyUb (fused c x dtIn o (dtIn.stride * n) dtOut scale zp mode op τ) (span o (dtIn.stride * n)) m0 (fun _ => False) := by
  obtain ⟨ft, rfl, _⟩ := ft_of h.inFloat
  cases ft
  · exact (C118_fused_f32_finished h hτ).mono (fun _ h => h) (fun _ hm => hu (hm.1 i hi).1)
  · exact (C118_fused_bf16_finished h hτ).mono (fun _ h => h) (fun _ hm => hu (hm.1 i hi).1)

/-! ## Consequences -/

/-- C118, stochastic quantization is the same everywhere: two finished calls with the same threshold - other CPU,
threads and output address, any data, scale and zero point - store the same codes. -/
theorem C118_stochastic_portable (h : QArgs c.threads x dtIn dtOut n) (h' : QArgs c'.threads x dtIn dtOut n) (hτ : Threshold .stochastic τ) :
    Always OnlyUb (quantize c x dtIn o (bytes dtOut.bits n) dtOut scale zp .stochastic τ) (span o (bytes dtOut.bits n)) m0
      (fun m => Always OnlyUb (quantize c' x dtIn o' (bytes dtOut.bits n) dtOut scale zp .stochastic τ) (span o' (bytes dtOut.bits n)) m
        (fun m' => ∀ i, i < n → code dtOut.bits m o i = code dtOut.bits m' o' i)) :=
  (C118_stochastic_finished h hτ).mono (fun _ h => h) (fun _ hm => (C118_stochastic_finished h' hτ).mono (fun _ h => h)
    (fun _ hm' i hi => by exact_mod_cast (hm.1 i hi).2.trans (hm'.1 i hi).2.symm))

/-- C118, the fused call is stricter than stochastic quantization only through the subtraction: with a zero point
in `[-2^63 + 256, 2^63 - 1]` both are fault-free on the same data. -/
theorem C118_fused_iff_quantize {p : F32} {bits : Nat} (hb : bits ≤ 8) (hz : -(2 ^ 63 - 256 : ℤ) ≤ zp ∧ zp < 2 ^ 63) :
    FusedOk mode bits τ p zp ↔ Ok64 mode τ p zp := by
  have h2 : (2:ℤ) ^ bits ≤ 256 := by
    calc (2:ℤ) ^ bits ≤ 2 ^ 8 := pow_le_pow_right₀ (by norm_num) hb
      _ = 256 := by norm_num
  have e1 : 0 ≤ code64 mode bits τ p zp := le_max_left _ _
  have e2 : code64 mode bits τ p zp ≤ 255 := by
    unfold code64 sat
    have := min_le_left ((2:ℤ) ^ bits - 1) (rounded mode τ.toRat p.toRat + zp)
    omega
  constructor
  · exact fun h => h.1
  · refine fun h => ⟨h, ?_⟩
    unfold IsI64
    norm_num at hz ⊢
    omega

/-! ## Concrete calls -/

example := C118_stochastic_finished (c := Ex.c1) (x := Ex.many) (dtIn := .f32) (dtOut := .uint8) (n := 70) (o := 1000) (scale := Ex.tenth)
  (τ := Ex.quarter) (zp := 64) (m0 := Ex.old) (h := by wit) (hτ := fun _ => by decide +kernel)
/-- The data of `bad16` hold a NaN: no execution finishes. -/
example := C118_stochastic_faults (c := ⟨.avx512f, 3, .none⟩) (x := bad16) (dtIn := .f32) (dtOut := .uint4) (n := 16) (o := 64) (scale := f1)
  (τ := Ex.quarter) (zp := 5) (m0 := Ex.old) (i := 1) (h := ⟨rfl, rfl, rfl, sz 16 3⟩) (hτ := fun _ => by decide +kernel) (hi := by decide)
  (hu := by decide +kernel)
example := C118_fused_faults (c := ⟨.avx512f, 3, .none⟩) (x := bad16) (dtIn := .f32) (dtOut := .uint4) (n := 16) (o := 64) (scale := f1) (mode := .nearest)
  (τ := Ex.quarter) (zp := 5) (m0 := Ex.old) (i := 1) (op := .add) (h := ⟨rfl, rfl, rfl, sz 16 3⟩) (hτ := fun h => by cases h) (hi := by decide)
  (hu := by decide +kernel)
example := C118_fused_f32_finished (c := Ex.c1) (x := Ex.many) (dtOut := .uint8) (n := 70) (o := 1000) (scale := Ex.tenth)
  (τ := Ex.quarter) (zp := 64) (m0 := Ex.old) (mode := .stochastic) (op := .add) (h := by wit) (hτ := fun _ => by decide +kernel)
example := C118_fused_bf16_finished (c := Ex.c1) (x := Ex.manyB) (dtOut := .uint8) (n := 70) (o := 1000) (scale := Ex.tenth)
  (τ := Ex.quarter) (zp := 64) (m0 := Ex.old) (mode := .stochastic) (op := .add) (h := by wit) (hτ := fun _ => by decide +kernel)
example := C118_stochastic_portable (c := Ex.c1) (c' := ⟨.portable, 1, .none⟩) (x := Ex.many) (dtIn := .f32) (dtOut := .uint8) (n := 70) (o := 1000) (o' := 3000)
  (scale := Ex.tenth) (τ := Ex.quarter) (zp := 64) (m0 := Ex.old) (h := by wit) (h' := ⟨rfl, rfl, by decide +kernel, sz 70 1⟩) (hτ := fun _ => by decide +kernel)

/-- Zero points and data far outside the `int32_t` range: all seventy elements of `many` are in range of the 64-bit
arithmetic with zero point `2^62`, and the calls run without faults. -/
example : (∀ i, i < 70 → Ok64 .stochastic Ex.quarter (scaled (elem .f32 Ex.many.data 0 i) Ex.tenth) (2 ^ 62)) ∧
    (∀ i, i < 70 → FusedOk .stochastic 8 Ex.quarter (scaled (elem .f32 Ex.many.data 0 i) Ex.tenth) (2 ^ 62)) ∧
    ¬ FusedOk .nearest 8 Ex.quarter f1 (-2 ^ 63) ∧ ¬ Ok64 .nearest Ex.quarter f1 (2 ^ 63 - 1) ∧ Ok64 .nearest Ex.quarter f1 (2 ^ 63 - 2) := by
  decide +kernel
example := C118_stochastic_fault_free (c := Ex.c1) (x := Ex.many) (dtIn := .f32) (dtOut := .uint8) (n := 70) (o := 1000) (scale := Ex.tenth)
  (τ := Ex.quarter) (zp := 2 ^ 62) (m0 := Ex.old) (h := by wit) (hτ := fun _ => by decide +kernel) (hz := by decide +kernel) (hd := by decide +kernel)
example := C118_fused_f32_fault_free (c := Ex.c1) (x := Ex.many) (dtOut := .uint8) (n := 70) (o := 1000) (scale := Ex.tenth)
  (τ := Ex.quarter) (zp := 2 ^ 62) (m0 := Ex.old) (mode := .stochastic) (op := .add) (h := by wit) (hτ := fun _ => by decide +kernel) (hd := by decide +kernel)
example := C118_fused_bf16_fault_free (c := Ex.c1) (x := Ex.manyB) (dtOut := .uint8) (n := 70) (o := 1000) (scale := Ex.tenth)
  (τ := Ex.quarter) (zp := 2 ^ 62) (m0 := Ex.old) (mode := .stochastic) (op := .add) (h := by wit) (hτ := fun _ => by decide +kernel) (hd := by decide +kernel)
example : FusedOk .stochastic 4 Ex.quarter f1 7 ↔ Ok64 .stochastic Ex.quarter f1 7 :=
  C118_fused_iff_quantize (mode := .stochastic) (τ := Ex.quarter) (p := f1) (bits := 4) (zp := 7) (by decide) ⟨by decide, by decide⟩

end Verif.Props
