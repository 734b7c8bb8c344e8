import Verif.Proofs.DequantMain
import Verif.Props.Examples

/-!
# Scheduling, work split, memory safety: C01–C04, C33, C35, C41
-/

namespace Verif.Props
open Spec

/-! ## C01 -/

/-- C01. The element ranges of the workers are consecutive, non-overlapping, inside the tensor and
every element belongs to exactly one of them. -/
theorem C01_split_tiles (d : Desc) (tc : Nat) (hs : Sizes d.numel tc) :
    (∀ ti, ti < tc → ∃ r, partitionRow d ti tc = .ok r) ∧
    (∀ e, e < d.numel → ∃! ti, ti < tc ∧ ∃ b len, partitionRow d ti tc = .ok (some (b, len)) ∧ b ≤ e ∧ e < b + len) ∧
    (∀ ti b len, ti < tc → partitionRow d ti tc = .ok (some (b, len)) → 0 < len ∧ b + len ≤ d.numel) ∧
    (∀ s t b len b' len', s < t → t < tc → partitionRow d s tc = .ok (some (b, len)) →
      partitionRow d t tc = .ok (some (b', len')) → b + len ≤ b') := by
  have key : ∀ ti b len, ti < tc → partitionRow d ti tc = .ok (some (b, len)) →
      b = cut (packElems (packedBits d)) d.numel tc ti ∧ b + len = cut (packElems (packedBits d)) d.numel tc (ti + 1) ∧ 0 < len := by
    intro ti b len ht h
    rw [partitionRow_eq ht hs.split] at h
    split at h
    · cases h
    · rename_i hlt
      injection h with h; injection h with h; injection h with h1 h2
      exact ⟨h1.symm, by omega, by omega⟩
  have mk : ∀ ti, ti < tc → cut (packElems (packedBits d)) d.numel tc ti < cut (packElems (packedBits d)) d.numel tc (ti + 1) →
      partitionRow d ti tc = .ok (some (cut (packElems (packedBits d)) d.numel tc ti,
        cut (packElems (packedBits d)) d.numel tc (ti + 1) - cut (packElems (packedBits d)) d.numel tc ti)) := by
    intro ti ht h
    rw [partitionRow_eq ht hs.split, if_neg (by omega)]
  refine ⟨fun ti ht => ?_, fun e he => ?_, fun ti b len ht h => ?_, fun s t b len b' len' hst ht h1 h2 => ?_⟩
  · rw [partitionRow_eq ht hs.split]
    split <;> exact ⟨_, rfl⟩
  · obtain ⟨ti, ht, h1, h2⟩ := cut_find (pe := packElems (packedBits d)) hs.pos he
    refine ⟨ti, ⟨ht, _, _, mk ti ht (by omega), h1, by omega⟩, ?_⟩
    rintro t ⟨ht', b, len, hp, h3, h4⟩
    obtain ⟨rfl, hb, _⟩ := key t b len ht' hp
    rcases lt_trichotomy t ti with h | h | h
    · have := cut_mono' (pe := packElems (packedBits d)) (n := d.numel) (tc := tc) (s := t + 1) (t := ti) (by omega) (by omega)
      omega
    · exact h
    · have := cut_mono' (pe := packElems (packedBits d)) (n := d.numel) (tc := tc) (s := ti + 1) (t := t) (by omega) (by omega)
      omega
  · obtain ⟨h1, h2, h3⟩ := key ti b len ht h
    refine ⟨h3, ?_⟩
    rw [h2]; exact cut_le (by omega)
  · obtain ⟨g1, g2, g3⟩ := key s b len (by omega) h1
    obtain ⟨g4, g5, g6⟩ := key t b' len' ht h2
    rw [g2, g4]; exact cut_mono' (by omega) (by omega)

/-- `C01_split_tiles` applied to a concrete case. -/
example := C01_split_tiles (d := ⟨.quant, 1001, f1, 0, .f32, .uint2, .nearest, .set, f0, .none⟩) (tc := 7) (hs := by wit)

/-- C01. Every worker's range starts at a whole input byte and a whole output byte, so its offsets
`bits * begin / 8` are exact, whatever the packing. -/
theorem C01_split_byte_aligned (d : Desc) (tc ti b len : Nat) (hs : Sizes d.numel tc) (ht : ti < tc)
    (hl : (d.type = .dequant ∧ d.dtIn.isQuant = true ∧ d.dtOut.isQuant = false) ∨
      (d.type ≠ .dequant ∧ d.dtIn.isQuant = false ∧ d.dtOut.isQuant = true))
    (h : partitionRow d ti tc = .ok (some (b, len))) :
    8 ∣ d.dtIn.bits * b ∧ (d.type ≠ .quantDequant → 8 ∣ d.dtOut.bits * b) := by
  have hl' : d.Legal := by
    unfold Desc.Legal
    rcases hl with ⟨h1, h2, h3⟩ | ⟨h1, h2, h3⟩
    · rw [h1]; exact ⟨h2, h3⟩
    · cases hd : d.type <;> rw [hd] at h1 <;> first | exact absurd rfl h1 | exact ⟨h2, h3⟩
  rw [partitionRow_eq ht hs.split] at h
  split at h
  · cases h
  · injection h with h; injection h with h; injection h with h1 h2
    obtain ⟨g1, g2⟩ := aligned_bits hl' (cut_dvd (pe := packElems (packedBits d)) (n := d.numel) (tc := tc) (ti := ti) (by omega))
    rw [← h1]
    refine ⟨g1, fun hq => ?_⟩
    unfold Desc.outBits at g2
    rwa [if_neg hq] at g2

/-- `C01_split_byte_aligned` applied to a concrete case. -/
example := C01_split_byte_aligned (d := ⟨.quant, 1001, f1, 0, .f32, .uint2, .nearest, .set, f0, .none⟩) (tc := 7) (ti := 3) (b := 428) (len := 144)
    (hs := by wit) (ht := by wit) (hl := Or.inr ⟨by decide, by decide, by decide⟩) (h := by decide)

/-- The hypotheses of C01 are met: 1001 elements on 7 threads. -/
example : Sizes 1001 7 := ⟨by decide, by norm_num, by norm_num⟩
example : partitionRow ⟨.quant, 1001, f1, 0, .f32, .uint2, .nearest, .set, f0, .none⟩ 3 7 = .ok (some (428, 144)) := by decide

/-! ## Workers of the three calls, for any input -/

section
variable {c : Ctx} {x : InBuf} {dtIn dtOut : DType} {n o : Nat} {scale τ : F32} {zp : ℤ} {mode : RoundMode} {op : ReduceOp} {m0 : Mem}

theorem onlyUb : OnlyUb .ub := rfl

theorem confined {d : Desc} {Ok : Nat → Mem → Prop} {isa : Isa} {tc : Nat} (hl : d.Legal) (hs : Sizes d.numel tc) (hw : WorkerOk OnlyUb isa x o d m0 Ok) :
    (∀ l dd s t a, Trace (span o ((d.outBits * d.numel + 7) / 8)) ⟨jobs isa tc x o d, m0⟩ l dd → (s, a) ∈ l → (t, a) ∈ l → s = t) ∧
    (∀ m, runSeq (span o ((d.outBits * d.numel + 7) / 8)) (jobs isa tc x o d) m0 = .ok m →
      AllSchedules NoFault (span o ((d.outBits * d.numel + 7) / 8)) (jobs isa tc x o d) m0 (fun m' => m' = m)) := by
  obtain ⟨h1, h2, h3⟩ := call_conf hl hs.split hs.addr hw.at
  constructor
  · intro l dd s t a htr hs1 ht1
    have := trace_wins onlyUb_oob h2 h3 htr
    obtain ⟨g1, g2⟩ := this s a hs1
    obtain ⟨g3, g4⟩ := this t a ht1
    by_contra hne
    have := h2 s t a g1 g3 hne g2
    rw [g4] at this; cases this
  · intro m hm
    exact sched_of_seq onlyUb_oob h1 h2 h3 hm

theorem readable_le (h : DArgs c.threads x dtIn dtOut n) (hr : Readable dtIn dtOut n x.size) {ft : FT} (hft : dtOut = ft.dtype) :
    dtIn = .uint2 → ft = .f32 → 0 < n → n / 4 + 1 ≤ x.size := by
  rintro rfl rfl hn
  have hsz := h.size
  simp only [bytes, DType.bits] at hsz
  by_cases h4 : n % 4 = 0
  · have := hr rfl hft hn h4
    simp only [bytes] at this; omega
  · omega

theorem bytes_ft (ft : FT) (n : Nat) : (ft.dtype.bits * n + 7) / 8 = bytes ft.dtype.bits n := rfl
theorem bytes_ft' {dt : DType} (h : dt.isQuant = false) (n : Nat) : bytes dt.bits n = dt.stride * n := by
  cases dt <;> simp [DType.isQuant, DType.bits, DType.stride, bytes] at * <;> omega

/-- Everything known of a quantize call on any input. -/
theorem quantize_any (h : QArgs c.threads x dtIn dtOut n) :
    ∃ js, quantize c x dtIn o (bytes dtOut.bits n) dtOut scale zp mode τ = .ok js ∧
      (∀ m0 l d s t a, Trace (span o (bytes dtOut.bits n)) ⟨js, m0⟩ l d → (s, a) ∈ l → (t, a) ∈ l → s = t) ∧
      (∀ m0 m, runSeq (span o (bytes dtOut.bits n)) js m0 = .ok m → AllSchedules NoFault (span o (bytes dtOut.bits n)) js m0 (fun m' => m' = m)) := by
  obtain ⟨ft, rfl, hst⟩ := ft_of h.inFloat
  have hx : x.size = ft.size * n := by rw [← hst]; exact h.size
  refine ⟨_, quantize_jobs h.outQuant h.sizes.addr hx, ?_⟩
  have hw := fun m0 => quantize_worker (E := OnlyUb) (fz := c.fuse) (isa := c.isa) (x := x) (o := o) (m0 := m0) (op := .set) (scale := scale) (τ := τ) (zp := zp) (mode := mode)
    h.outQuant (le_of_eq hx.symm) (fun i _ => scalarStep_ok onlyUb _) (fun _ => scalarStep_ok onlyUb _)
  exact ⟨fun m0 => (confined (legal_quant h.outQuant) h.sizes (hw m0)).1, fun m0 => (confined (legal_quant h.outQuant) h.sizes (hw m0)).2⟩

/-- Everything known of a dequantize call on any input. -/
theorem dequantize_any (h : DArgs c.threads x dtIn dtOut n) (hr : Readable dtIn dtOut n x.size) :
    ∃ js, dequantize c x (bytes dtIn.bits n) dtIn o (dtOut.stride * n) dtOut scale zp op = .ok js ∧
      (∀ m0 l d s t a, Trace (span o (dtOut.stride * n)) ⟨js, m0⟩ l d → (s, a) ∈ l → (t, a) ∈ l → s = t) ∧
      (∀ m0 m, runSeq (span o (dtOut.stride * n)) js m0 = .ok m → AllSchedules NoFault (span o (dtOut.stride * n)) js m0 (fun m' => m' = m)) ∧
      (∀ m0, AllSchedules OnlyUb (span o (dtOut.stride * n)) js m0 (fun m => runSeq (span o (dtOut.stride * n)) js m0 = .ok m)) := by
  obtain ⟨ft, rfl, hst⟩ := ft_of h.outFloat
  rw [hst]
  refine ⟨_, dequantize_jobs h.inQuant h.sizes.addr, ?_⟩
  have hw := fun m0 => dequantize_worker (E := OnlyUb) (fz := c.fuse) (isa := c.isa) (x := x) (o := o) (m0 := m0) (op := op) (scale := scale) (zp := zp) (mode := .nearest) (τ := f0)
    h.inQuant h.size (readable_le h hr rfl) (fun i _ => Or.inl onlyUb)
  have hb : (ft.dtype.bits * n + 7) / 8 = ft.size * n := outBytes_ft ft n
  have hc := fun m0 => confined (legal_dequant h.inQuant) h.sizes (hw m0)
  simp only [Desc.outBits, reduceCtorEq, if_false, hb] at hc
  refine ⟨fun m0 => (hc m0).1, fun m0 => (hc m0).2, fun m0 => ?_⟩
  have := dequantize_sched (E := OnlyUb) (c := c) (o := o) (m0 := m0) (scale := scale) (zp := zp) (op := op) onlyUb_oob h.inQuant h.size (readable_le h hr rfl) h.sizes (fun i _ => Or.inl onlyUb)
  exact ⟨this.safe, this.raceFree, this.progress, this.bounded, fun k d hr hd => (this.post k d hr hd).2⟩

theorem qStep_ok {E : Fault → Prop} (hE : E .ub) {qmax : Nat} {v inv : F32} : StepOk E (qStep mode qmax v τ inv zp) := by
  cases mode
  · rcases qNearest64_cases qmax v inv zp with ⟨q, _, h⟩ | h
    · exact Or.inl ⟨_, h⟩
    · exact Or.inr ⟨_, h, hE⟩
  · rcases qStoch64_cases qmax v τ inv zp with ⟨q, _, h⟩ | h
    · exact Or.inl ⟨_, h⟩
    · exact Or.inr ⟨_, h, hE⟩

/-- Everything known of a fused call on any input. -/
theorem fused_any (h : QArgs c.threads x dtIn dtOut n) :
    ∃ js, fused c x dtIn o (dtIn.stride * n) dtOut scale zp mode op τ = .ok js ∧
      (∀ m0 l d s t a, Trace (span o (dtIn.stride * n)) ⟨js, m0⟩ l d → (s, a) ∈ l → (t, a) ∈ l → s = t) ∧
      (∀ m0 m, runSeq (span o (dtIn.stride * n)) js m0 = .ok m → AllSchedules NoFault (span o (dtIn.stride * n)) js m0 (fun m' => m' = m)) ∧
      (∀ m0, AllSchedules OnlyUb (span o (dtIn.stride * n)) js m0 (fun m => runSeq (span o (dtIn.stride * n)) js m0 = .ok m)) := by
  obtain ⟨ft, rfl, hst⟩ := ft_of h.inFloat
  have hx : x.size = ft.size * n := by rw [← hst]; exact h.size
  rw [hst]
  refine ⟨_, fused_jobs h.outQuant hx, ?_⟩
  have hw := fun m0 => fused_worker (E := OnlyUb) (fz := c.fuse) (isa := c.isa) (x := x) (o := o) (m0 := m0) (op := op) (scale := scale) (τ := τ) (zp := zp) (mode := mode)
    h.outQuant (le_of_eq hx.symm) (fun i _ => qStep_ok onlyUb) (fun _ _ => Or.inl onlyUb)
  have hb : (ft.dtype.bits * n + 7) / 8 = ft.size * n := outBytes_ft ft n
  have hc := fun m0 => confined (legal_fused h.outQuant) h.sizes (hw m0)
  simp only [Desc.outBits, if_true, hb] at hc
  refine ⟨fun m0 => (hc m0).1, fun m0 => (hc m0).2, fun m0 => ?_⟩
  have := fused_sched (E := OnlyUb) (c := c) (o := o) (m0 := m0) (scale := scale) (zp := zp) (op := op) (τ := τ) (mode := mode) onlyUb_oob h.outQuant hx h.sizes (fun i _ => qStep_ok onlyUb) (fun _ _ => Or.inl onlyUb)
  exact ⟨this.safe, this.raceFree, this.progress, this.bounded, fun k d hr hd => (this.post k d hr hd).2⟩

/-! ## C02 -/

/-- C02 (quantize). In every execution, under every schedule, the workers that touch an output
byte are one and the same; no hypothesis on the data. -/
theorem C02_quantize_no_shared_byte (h : QArgs c.threads x dtIn dtOut n) {js : List (Prog Unit)}
    (hc : quantize c x dtIn o (bytes dtOut.bits n) dtOut scale zp mode τ = .ok js) {l : List (Nat × Nat)} {d : Cfg} {s t a : Nat}
    (ht : Trace (span o (bytes dtOut.bits n)) ⟨js, m0⟩ l d) (h1 : (s, a) ∈ l) (h2 : (t, a) ∈ l) : s = t := by
  obtain ⟨js', e, g, _⟩ := quantize_any (o := o) (scale := scale) (τ := τ) (zp := zp) (mode := mode) h
  rw [hc] at e; cases e
  exact g _ _ _ _ _ _ ht h1 h2

/-- C02 (dequantize, SET and ADD). -/
theorem C02_dequantize_no_shared_byte (h : DArgs c.threads x dtIn dtOut n) (hr : Readable dtIn dtOut n x.size) {js : List (Prog Unit)}
    (hc : dequantize c x (bytes dtIn.bits n) dtIn o (dtOut.stride * n) dtOut scale zp op = .ok js) {l : List (Nat × Nat)} {d : Cfg} {s t a : Nat}
    (ht : Trace (span o (dtOut.stride * n)) ⟨js, m0⟩ l d) (h1 : (s, a) ∈ l) (h2 : (t, a) ∈ l) : s = t := by
  obtain ⟨js', e, g, _⟩ := dequantize_any (o := o) (scale := scale) (zp := zp) (op := op) h hr
  rw [hc] at e; cases e
  exact g _ _ _ _ _ _ ht h1 h2

/-- C02 (fused, SET and ADD). -/
theorem C02_fused_no_shared_byte (h : QArgs c.threads x dtIn dtOut n) {js : List (Prog Unit)}
    (hc : fused c x dtIn o (dtIn.stride * n) dtOut scale zp mode op τ = .ok js) {l : List (Nat × Nat)} {d : Cfg} {s t a : Nat}
    (ht : Trace (span o (dtIn.stride * n)) ⟨js, m0⟩ l d) (h1 : (s, a) ∈ l) (h2 : (t, a) ∈ l) : s = t := by
  obtain ⟨js', e, g, _⟩ := fused_any (o := o) (scale := scale) (τ := τ) (zp := zp) (mode := mode) (op := op) h
  rw [hc] at e; cases e
  exact g _ _ _ _ _ _ ht h1 h2

/-! ## C03 -/

/-- C03 (quantize). Under every interleaving: no race, no access outside the spans, termination; a
finished call leaves the memory of the sequential run; and if the sequential run does not hit
undefined arithmetic, no interleaving does. -/
theorem C03_quantize_schedule_independent (h : QArgs c.threads x dtIn dtOut n) :
    ∃ js, quantize c x dtIn o (bytes dtOut.bits n) dtOut scale zp mode τ = .ok js ∧
      AllSchedules OnlyUb (span o (bytes dtOut.bits n)) js m0 (fun m => runSeq (span o (bytes dtOut.bits n)) js m0 = .ok m) ∧
      (∀ m, runSeq (span o (bytes dtOut.bits n)) js m0 = .ok m →
        AllSchedules NoFault (span o (bytes dtOut.bits n)) js m0 (fun m' => m' = m)) := by
  obtain ⟨js, e, _, g⟩ := quantize_any (o := o) (scale := scale) (τ := τ) (zp := zp) (mode := mode) h
  obtain ⟨js', e', _, g'⟩ := quantize_ub (o := o) (scale := scale) (τ := τ) (zp := zp) (mode := mode) h m0
  rw [e] at e'; cases e'
  exact ⟨js, e, ⟨g'.safe, g'.raceFree, g'.progress, g'.bounded, fun k d hr hd => (g'.post k d hr hd).2⟩, g m0⟩

/-- `C03_quantize_schedule_independent` applied to a concrete case. -/
example := C03_quantize_schedule_independent (c := Ex.c1) (x := Ex.many) (dtIn := .f32) (dtOut := .uint8) (n := 70) (o := 1000) (scale := Ex.tenth)
    (τ := Ex.quarter) (zp := 64) (mode := .nearest) (m0 := Ex.old) (h := by wit)

/-- C03 (dequantize). -/
theorem C03_dequantize_schedule_independent (h : DArgs c.threads x dtIn dtOut n) (hr : Readable dtIn dtOut n x.size) :
    ∃ js, dequantize c x (bytes dtIn.bits n) dtIn o (dtOut.stride * n) dtOut scale zp op = .ok js ∧
      AllSchedules OnlyUb (span o (dtOut.stride * n)) js m0 (fun m => runSeq (span o (dtOut.stride * n)) js m0 = .ok m) ∧
      (∀ m, runSeq (span o (dtOut.stride * n)) js m0 = .ok m →
        AllSchedules NoFault (span o (dtOut.stride * n)) js m0 (fun m' => m' = m)) := by
  obtain ⟨js, e, _, g, g'⟩ := dequantize_any (o := o) (scale := scale) (zp := zp) (op := op) h hr
  exact ⟨js, e, g' m0, g m0⟩

/-- `C03_dequantize_schedule_independent` applied to a concrete case. -/
example := C03_dequantize_schedule_independent (c := Ex.c1) (x := Ex.codes) (dtIn := .uint4) (dtOut := .f32) (n := 139) (o := 1000) (scale := Ex.tenth)
    (zp := 7) (op := .add) (m0 := Ex.old) (h := by wit) (hr := by wit)

/-- C03 (fused). -/
theorem C03_fused_schedule_independent (h : QArgs c.threads x dtIn dtOut n) :
    ∃ js, fused c x dtIn o (dtIn.stride * n) dtOut scale zp mode op τ = .ok js ∧
      AllSchedules OnlyUb (span o (dtIn.stride * n)) js m0 (fun m => runSeq (span o (dtIn.stride * n)) js m0 = .ok m) ∧
      (∀ m, runSeq (span o (dtIn.stride * n)) js m0 = .ok m →
        AllSchedules NoFault (span o (dtIn.stride * n)) js m0 (fun m' => m' = m)) := by
  obtain ⟨js, e, _, g, g'⟩ := fused_any (o := o) (scale := scale) (τ := τ) (zp := zp) (mode := mode) (op := op) h
  exact ⟨js, e, g' m0, g m0⟩

/-- `C03_fused_schedule_independent` applied to a concrete case. -/
example := C03_fused_schedule_independent (c := Ex.c1) (x := Ex.many) (dtIn := .f32) (dtOut := .uint8) (n := 70) (o := 1000) (scale := Ex.tenth)
    (τ := Ex.quarter) (zp := 64) (mode := .nearest) (op := .add) (m0 := Ex.old) (h := by wit)

/-! ## C04 -/

/-- C04. For any input, a quantize call accesses only its spans (every schedule), and a finished
call has written every byte of the output span with a value that depends on the arguments only, not
on the previous contents, and nothing else. -/
theorem C04_quantize_writes_exactly_span (h : QArgs c.threads x dtIn dtOut n) :
    ∃ out : Nat → Nat, (∀ j, j < bytes dtOut.bits n → out j < 256) ∧
      ∀ m0, Always OnlyUb (quantize c x dtIn o (bytes dtOut.bits n) dtOut scale zp mode τ) (span o (bytes dtOut.bits n)) m0
        (fun m => (∀ j, j < bytes dtOut.bits n → m (o + j) = out j) ∧
          ∀ a, (a < o ∨ o + bytes dtOut.bits n ≤ a) → m a = m0 a) := by
  have hu := fun m0 => quantize_ub (o := o) (scale := scale) (τ := τ) (zp := zp) (mode := mode) h m0
  obtain ⟨js, e, hn, _⟩ := hu (fun _ => 0)
  have hu' : ∀ m0, AllSchedules OnlyUb (span o (bytes dtOut.bits n)) js m0 (fun m => QRes c x dtIn dtOut n o scale τ zp mode m0 m ∧
        runSeq (span o (bytes dtOut.bits n)) js m0 = .ok m) := by
    intro m0
    obtain ⟨js', e', _, g⟩ := hu m0
    rw [e] at e'; cases e'; exact g
  obtain ⟨out, ho⟩ := overwrites (o := o) (len := bytes dtOut.bits n) hn (fun m0 => ⟨(hu' m0).safe, (hu' m0).raceFree, (hu' m0).progress, (hu' m0).bounded,
    fun k d hr hd => ⟨((hu' m0).post k d hr hd).1.2.2.1, ((hu' m0).post k d hr hd).2⟩⟩)
  refine ⟨fun j => out j % 256, fun j _ => Nat.mod_lt _ (by norm_num), fun m0 => ⟨js, e, (hu' m0).safe, (hu' m0).raceFree, (hu' m0).progress, (hu' m0).bounded,
    fun k d hr hd => ⟨fun j hj => ?_, ((hu' m0).post k d hr hd).1.2.2.2⟩⟩⟩
  have h1 := (ho m0).post k d hr hd j hj
  have h2 := ((hu' m0).post k d hr hd).1.2.2.1 j hj
  rw [h1] at h2 ⊢
  exact (Nat.mod_eq_of_lt h2).symm

/-- `C04_quantize_writes_exactly_span` applied to a concrete case. -/
example := C04_quantize_writes_exactly_span (c := Ex.c1) (x := Ex.many) (dtIn := .f32) (dtOut := .uint8) (n := 70) (o := 1000) (scale := Ex.tenth)
    (τ := Ex.quarter) (zp := 64) (mode := .nearest) (h := by wit)

/-! ## C33 -/

/-- C33 is false of the code: with a context of zero threads a call "succeeds" and writes nothing. -/
theorem C33_zero_threads_writes_nothing (isa : Isa) (fz : Fuse) {js : List (Prog Unit)} {w : Win}
    (hc : quantize ⟨isa, 0, fz⟩ x dtIn o (bytes dtOut.bits n) dtOut scale zp mode τ = .ok js) :
    AllSchedules NoFault w js m0 (fun m => m = m0) := by
  have : js = [] := by
    unfold quantize at hc
    split at hc
    · cases hc
    · split at hc
      · cases hc
      · dsimp only at hc
        split at hc
        · cases hc
        · split at hc
          · cases hc; rfl
          · cases hc
  subst this
  have hr : ∀ k d, Reach w ⟨[], m0⟩ k d → k = 0 ∧ d = ⟨[], m0⟩ := by
    intro k d h
    induction h with
    | refl => exact ⟨rfl, rfl⟩
    | tail _ s ih =>
      obtain ⟨_, rfl⟩ := ih
      cases s <;> simp at *
  refine ⟨fun k d h => ?_, fun k d h => ?_, fun k d h hn => ?_, ⟨0, fun k d h => by rw [(hr k d h).1]⟩, fun k d h _ => by rw [(hr k d h).2]⟩
  · rw [(hr k d h).2]; rintro ⟨p, hp, _⟩; simp at hp
  · rw [(hr k d h).2]; rintro ⟨s, t, a, p, q, _, hp, _⟩; simp at hp
  · rw [(hr k d h).2] at hn; exact absurd (fun p hp => by simp at hp) hn

/-- C33, what holds: with at least one thread the whole span is written (C04). -/
theorem C33_positive_threads_write_partial (h : QArgs c.threads x dtIn dtOut n) (h0 : 0 < c.threads) :
    ∃ out : Nat → Nat, ∀ m0, Always OnlyUb (quantize c x dtIn o (bytes dtOut.bits n) dtOut scale zp mode τ) (span o (bytes dtOut.bits n)) m0
        (fun m => ∀ j, j < bytes dtOut.bits n → m (o + j) = out j) := by
  obtain ⟨out, _, g⟩ := C04_quantize_writes_exactly_span (o := o) (scale := scale) (τ := τ) (zp := zp) (mode := mode) h
  exact ⟨out, fun m0 => (g m0).mono (fun _ h => h) (fun m hm => hm.1)⟩

/-- `C33_positive_threads_write_partial` applied to a concrete case. -/
example := C33_positive_threads_write_partial (c := Ex.c1) (x := Ex.many) (dtIn := .f32) (dtOut := .uint8) (n := 70) (o := 1000) (scale := Ex.tenth)
    (τ := Ex.quarter) (zp := 64) (mode := .nearest) (h := by wit) (h0 := by wit)

end

/-! The hypotheses are met by concrete calls, and the calls do something. -/
example : QArgs 3 Ex.xs .f32 .uint4 5 := ⟨rfl, rfl, rfl, by decide, by norm_num, by norm_num⟩
example : QArgs 2 Ex.xb .bf16 .uint2 3 := ⟨rfl, rfl, rfl, by decide, by norm_num, by norm_num⟩
example : DArgs 2 (Ex.buf [0x1B, 0xE4]) .uint2 .f32 7 := ⟨rfl, rfl, by decide, by decide, by norm_num, by norm_num⟩
example : Ex.result (quantize ⟨.avx2, 3, .none⟩ Ex.xs .f32 100 3 .uint4 Ex.half 8 .nearest f0) 100 3 Ex.old = .ok [58, 249, 15] := by decide +kernel
example : Ex.result (quantize ⟨.avx2, 0, .none⟩ Ex.xs .f32 100 3 .uint4 Ex.half 8 .nearest f0) 100 3 Ex.old = .ok [0xAB, 0xAB, 0xAB] := by decide +kernel

end Verif.Props
