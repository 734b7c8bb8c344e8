import Verif.Props.Examples
import Verif.Props.Sched
import Verif.Proofs.QuantMain

/-! # C01, C61: which worker touches which output byte, in every execution of a call -/

namespace Verif.Props
open Spec

/-- The `n` elements (of `bits` bits, output at `o`) are split into `T` consecutive slices
`[cut t, cut (t+1))`, of at most `most` elements each; in every execution worker `t` touches only
bytes that start inside its own slice, and when all workers have finished every byte of the output
has been touched. -/
def Tiled (T n o bits most : Nat) (w : Win) (js : List (Prog Unit)) : Prop :=
  js.length = T ∧ ∃ cut : Nat → Nat, cut 0 = 0 ∧ cut T = n ∧ (∀ t, t < T → cut t ≤ cut (t + 1) ∧ cut (t + 1) - cut t ≤ most) ∧
    ∀ m0 l d, Trace w ⟨js, m0⟩ l d →
      (∀ t a, (t, a) ∈ l → t < T ∧ o ≤ a ∧ bits * cut t ≤ 8 * (a - o) ∧ 8 * (a - o) < bits * cut (t + 1)) ∧
      (d.Done → ∀ j, j < bytes bits n → ∃ t, (t, o + j) ∈ l)

theorem cut_size {pe n tc t : Nat} (hpe : 0 < pe) (ht : t < tc) : cut pe n tc (t + 1) - cut pe n tc t ≤ n / tc + pe := by
  have htc : 0 < tc := by omega
  have h1 : n * (t + 1) / tc ≤ n * t / tc + n / tc + 1 := by
    rw [Nat.mul_add, Nat.mul_one]
    have a1 := Nat.div_add_mod (n * t) tc
    have a2 := Nat.div_add_mod n tc
    have b1 := Nat.mod_lt (n * t) htc
    have b2 := Nat.mod_lt n htc
    have : n * t + n < tc * (n * t / tc + n / tc + 2) := by
      calc n * t + n = tc * (n * t / tc) + tc * (n / tc) + (n * t % tc + n % tc) := by omega
        _ < tc * (n * t / tc) + tc * (n / tc) + (tc + tc) := by omega
        _ = _ := by ring
    exact Nat.le_of_lt_succ (Nat.div_lt_of_lt_mul this)
  have h2 : n * t / tc - n * t / tc % pe + pe ≥ n * t / tc + 1 := by
    have := Nat.mod_lt (n * t / tc) hpe
    have := Nat.mod_le (n * t / tc) pe
    omega
  have h3 : cut pe n tc t = n * t / tc - n * t / tc % pe := by unfold cut; rw [if_neg (by omega)]
  have h4 : cut pe n tc (t + 1) ≤ n * (t + 1) / tc := by
    unfold cut
    split
    · rename_i he
      rw [he, Nat.mul_div_cancel _ htc]
    · exact Nat.sub_le _ _
  rw [h3]
  generalize n * t / tc - n * t / tc % pe = A at *
  generalize n * (t + 1) / tc = B at *
  generalize n * t / tc = C at *
  generalize n / tc = D at *
  generalize cut pe n tc (t + 1) = F at *
  omega

/-- An execution that never touches a byte does not depend on it. -/
theorem trace_frame {w : Win} {js : List (Prog Unit)} {m0 : Mem} {l : List (Nat × Nat)} {d : Cfg} {a v : Nat} (h : Trace w ⟨js, m0⟩ l d)
    (hn : ∀ t, (t, a) ∉ l) : Trace w ⟨js, m0.set a v⟩ l ⟨d.jobs, d.mem.set a v⟩ := by
  induction h with
  | refl => exact .refl
  | @rd l d t b k h hj ha ih =>
    have hb : b ≠ a := by rintro rfl; exact hn t (List.mem_cons_self ..)
    have := Trace.rd (ih (fun s hs => hn s (List.mem_cons_of_mem _ hs))) (t := t) (a := b) (k := k) hj ha
    have e : (d.mem.set a v) b = d.mem b := by unfold Mem.set; rw [if_neg hb]
    simp only [e] at this
    exact this
  | @wr l d t b u k h hj ha ih =>
    have hb : b ≠ a := by rintro rfl; exact hn t (List.mem_cons_self ..)
    have := Trace.wr (ih (fun s hs => hn s (List.mem_cons_of_mem _ hs))) (t := t) (a := b) (b := u) (k := k) hj ha
    have e : (d.mem.set a v).set b u = (d.mem.set b u).set a v := by
      funext y; unfold Mem.set
      by_cases h1 : y = a <;> by_cases h2 : y = b <;> simp only [h1, h2, if_true, if_false] <;> try rfl
      · subst h1; rw [h2] at hb; exact absurd rfl hb
      · subst h1; rw [if_neg (fun h => hb h.symm)]
      · subst h2; rw [if_neg hb]
    simp only [e] at this
    exact this

theorem tiled_of {isa : Isa} {tc : Nat} {x : InBuf} {o : Nat} {d : Desc} {Ok : Mem → Nat → Mem → Prop} (hl : d.Legal) (hs : Sizes d.numel tc)
    (hw : ∀ m0, WorkerOk OnlyUb isa x o d m0 (Ok m0))
    (hpost : ∀ m0, AllSchedules OnlyUb ⟨o, o + (d.outBits * d.numel + 7) / 8⟩ (jobs isa tc x o d) m0
      (fun m => ∀ j, j < (d.outBits * d.numel + 7) / 8 → m (o + j) < 256)) :
    Tiled tc d.numel o d.outBits (d.numel / tc + packElems (packedBits d)) ⟨o, o + (d.outBits * d.numel + 7) / 8⟩ (jobs isa tc x o d) := by
  have hpe : 0 < packElems (packedBits d) := by
    have : ∀ b : DType, 0 < packElems b.bits := by intro b; cases b <;> decide
    unfold packedBits
    cases d.type
    · exact this _
    · exact this _
    · show 0 < packElems (max d.dtIn.bits d.dtOut.bits)
      rcases max_choice d.dtIn.bits d.dtOut.bits with e | e <;> rw [e] <;> exact this _
  refine ⟨jobs_length, cut (packElems (packedBits d)) d.numel tc, cut_zero hs.pos, cut_last, fun t ht => ⟨cut_mono ht, cut_size hpe ht⟩, fun m0 l dd htr => ⟨fun t a hta => ?_, fun hd j hj => ?_⟩⟩
  · obtain ⟨h1, h2, h3⟩ := call_conf (tc := tc) hl hs.split hs.addr (hw m0).at
    obtain ⟨g1, g2⟩ := trace_wins onlyUb_oob h2 h3 htr t a hta
    rw [jobs_length] at g1
    rw [workerWin_has] at g2
    obtain ⟨_, g3, g4⟩ := g2
    have h8 := (aligned_bits hl (cut_dvd (pe := packElems (packedBits d)) (n := d.numel) (tc := tc) (ti := t) (by omega))).2
    refine ⟨g1, by omega, by omega, by omega⟩
  · by_contra hc
    have hc : ∀ t, (t, o + j) ∉ l := fun t h => hc ⟨t, h⟩
    have htr' := trace_frame (v := 256) htr hc
    have := (hpost (m0.set (o + j) 256)).post _ _ (trace_reach htr') hd j hj
    simp [Mem.set] at this

section
variable {c : Ctx} {x : InBuf} {dtIn dtOut : DType} {n o : Nat} {scale τ : F32} {zp : ℤ} {mode : RoundMode} {op : ReduceOp}

/-- C01 (quantize). In every execution the workers process consecutive slices that tile the
tensor, and no slice has more than `n / threads` elements plus one byte's worth; when the call returns
every output byte has been processed. -/
theorem C01_quantize_tiles (h : QArgs c.threads x dtIn dtOut n) :
    ∃ js, quantize c x dtIn o (bytes dtOut.bits n) dtOut scale zp mode τ = .ok js ∧
      Tiled c.threads n o dtOut.bits (n / c.threads + 8 / dtOut.bits) (span o (bytes dtOut.bits n)) js := by
  obtain ⟨ft, rfl, hst⟩ := ft_of h.inFloat
  have hx : x.size = ft.size * n := by rw [← hst]; exact h.size
  refine ⟨_, quantize_jobs h.outQuant h.sizes.addr hx, ?_⟩
  have hw := fun m0 => quantize_worker (E := OnlyUb) (fz := c.fuse) (isa := c.isa) (x := x) (o := o) (m0 := m0) (op := .set) (scale := scale) (τ := τ) (zp := zp) (mode := mode)
    h.outQuant (le_of_eq hx.symm) (fun i _ => scalarStep_ok onlyUb _) (fun _ => scalarStep_ok onlyUb _)
  have hp := fun m0 => quantize_sched (E := OnlyUb) (c := c) (o := o) (m0 := m0) (scale := scale) (τ := τ) (zp := zp) (mode := mode) onlyUb_oob h.outQuant hx h.sizes
    (fun i _ => scalarStep_ok (E := OnlyUb) rfl _) (fun _ => scalarStep_ok (E := OnlyUb) rfl _)
  have := tiled_of (tc := c.threads) (legal_quant h.outQuant) h.sizes hw (fun m0 => by
    have g := hp m0
    exact ⟨g.safe, g.raceFree, g.progress, g.bounded, fun k d hr hd => (g.post k d hr hd).2.2.1⟩)
  have e : packElems (packedBits ⟨.quant, n, scale, zp, ft.dtype, dtOut, mode, .set, τ, c.fuse⟩) = 8 / dtOut.bits := by
    have ho := h.outQuant
    cases dtOut <;> simp only [DType.isQuant, Bool.false_eq_true] at ho <;> rfl
  rw [e] at this
  exact this

/-- `C01_quantize_tiles` applied to a concrete case. -/
example := C01_quantize_tiles (c := Ex.c1) (x := Ex.many) (dtIn := .f32) (dtOut := .uint8) (n := 70) (o := 1000) (scale := Ex.tenth) (τ := Ex.quarter)
    (zp := 64) (mode := .nearest) (h := by wit)

/-- C01 (dequantize, SET and ADD). -/
theorem C01_dequantize_tiles (h : DArgs c.threads x dtIn dtOut n) (hr : Readable dtIn dtOut n x.size) :
    ∃ js, dequantize c x (bytes dtIn.bits n) dtIn o (dtOut.stride * n) dtOut scale zp op = .ok js ∧
      Tiled c.threads n o dtOut.bits (n / c.threads + 8 / dtIn.bits) (span o (dtOut.stride * n)) js := by
  obtain ⟨ft, rfl, hst⟩ := ft_of h.outFloat
  rw [hst]
  refine ⟨_, dequantize_jobs h.inQuant h.sizes.addr, ?_⟩
  have hw := fun m0 => dequantize_worker (E := OnlyUb) (fz := c.fuse) (isa := c.isa) (x := x) (o := o) (m0 := m0) (op := op) (scale := scale) (zp := zp) (mode := .nearest) (τ := f0)
    h.inQuant h.size (readable_le h hr rfl) (fun i _ => Or.inl onlyUb)
  have hb : (ft.dtype.bits * n + 7) / 8 = ft.size * n := outBytes_ft ft n
  have hp := fun m0 => dequantize_sched (E := OnlyUb) (c := c) (o := o) (m0 := m0) (scale := scale) (zp := zp) (op := op) onlyUb_oob h.inQuant h.size (readable_le h hr rfl) h.sizes (fun i _ => Or.inl onlyUb)
  have := tiled_of (tc := c.threads) (legal_dequant h.inQuant) h.sizes hw (fun m0 => by
    have g := hp m0
    simp only [Desc.outBits, reduceCtorEq, if_false, hb]
    exact ⟨g.safe, g.raceFree, g.progress, g.bounded, fun k d hr hd => (g.post k d hr hd).1.2.1⟩)
  have e : packElems (packedBits ⟨.dequant, n, scale, zp, dtIn, ft.dtype, .nearest, op, f0, c.fuse⟩) = 8 / dtIn.bits := by
    have ho := h.inQuant
    cases dtIn <;> simp only [DType.isQuant, Bool.false_eq_true] at ho <;> rfl
  simp only [Desc.outBits, reduceCtorEq, if_false, hb] at this
  rw [e] at this
  exact this

/-- `C01_dequantize_tiles` applied to a concrete case. -/
example := C01_dequantize_tiles (c := Ex.c1) (x := Ex.codes) (dtIn := .uint4) (dtOut := .f32) (n := 139) (o := 1000) (scale := Ex.tenth) (zp := 7)
    (op := .add) (h := by wit) (hr := by wit)

/-- C01 (fused, SET and ADD): slices of single elements. -/
theorem C01_fused_tiles (h : QArgs c.threads x dtIn dtOut n) :
    ∃ js, fused c x dtIn o (dtIn.stride * n) dtOut scale zp mode op τ = .ok js ∧
      Tiled c.threads n o dtIn.bits (n / c.threads + 1) (span o (dtIn.stride * n)) js := by
  obtain ⟨ft, rfl, hst⟩ := ft_of h.inFloat
  have hx : x.size = ft.size * n := by rw [← hst]; exact h.size
  rw [hst]
  refine ⟨_, fused_jobs h.outQuant hx, ?_⟩
  have hw := fun m0 => fused_worker (E := OnlyUb) (fz := c.fuse) (isa := c.isa) (x := x) (o := o) (m0 := m0) (op := op) (scale := scale) (τ := τ) (zp := zp) (mode := mode)
    h.outQuant (le_of_eq hx.symm) (fun i _ => qStep_ok onlyUb) (fun _ _ => Or.inl onlyUb)
  have hb : (ft.dtype.bits * n + 7) / 8 = ft.size * n := outBytes_ft ft n
  have hp := fun m0 => fused_sched (E := OnlyUb) (c := c) (o := o) (m0 := m0) (scale := scale) (zp := zp) (op := op) (τ := τ) (mode := mode) onlyUb_oob h.outQuant hx h.sizes (fun i _ => qStep_ok onlyUb) (fun _ _ => Or.inl onlyUb)
  have := tiled_of (tc := c.threads) (legal_fused h.outQuant) h.sizes hw (fun m0 => by
    have g := hp m0
    simp only [Desc.outBits, if_true, hb]
    exact ⟨g.safe, g.raceFree, g.progress, g.bounded, fun k d hr hd => (g.post k d hr hd).1.2.1⟩)
  have e : packElems (packedBits ⟨.quantDequant, n, scale, zp, ft.dtype, dtOut, mode, op, τ, c.fuse⟩) = 1 := by
    have ho := h.outQuant
    cases ft <;> cases dtOut <;> simp only [DType.isQuant, Bool.false_eq_true] at ho <;> rfl
  simp only [Desc.outBits, if_true, hb] at this
  rw [e] at this
  exact this

/-- `C01_fused_tiles` applied to a concrete case. -/
example := C01_fused_tiles (c := Ex.c1) (x := Ex.many) (dtIn := .f32) (dtOut := .uint8) (n := 70) (o := 1000) (scale := Ex.tenth) (τ := Ex.quarter)
    (zp := 64) (mode := .nearest) (op := .add) (h := by wit)

/-! ## C61 -/

/-- In every execution, worker `t` only touches a block of at most `len` consecutive bytes. -/
def Balanced (T len : Nat) (w : Win) (js : List (Prog Unit)) : Prop :=
  js.length = T ∧ ∃ lo : Nat → Nat, ∀ m0 l d, Trace w ⟨js, m0⟩ l d → ∀ t a, (t, a) ∈ l → lo t ≤ a ∧ a < lo t + len

theorem Tiled.balanced {T n o bits most : Nat} {w : Win} {js : List (Prog Unit)} (h : Tiled T n o bits most w js) :
    Balanced T (bytes bits most) w js := by
  obtain ⟨h0, cut, _, _, h1, h2⟩ := h
  refine ⟨h0, fun t => o + (bits * cut t + 7) / 8, fun m0 l d htr t a hta => ?_⟩
  obtain ⟨g1, g2, g3, g4⟩ := (h2 m0 l d htr).1 t a hta
  have g5 := h1 t g1
  have g6 : bits * cut (t + 1) ≤ bits * cut t + bits * most := by rw [← Nat.mul_add]; exact Nat.mul_le_mul_left _ (by omega)
  unfold bytes
  dsimp only
  constructor <;> omega

/-- C61 (quantize). No worker handles more than `n / threads` elements plus one byte's worth. -/
theorem C61_quantize_balanced (h : QArgs c.threads x dtIn dtOut n) :
    ∃ js, quantize c x dtIn o (bytes dtOut.bits n) dtOut scale zp mode τ = .ok js ∧
      Balanced c.threads (bytes dtOut.bits (n / c.threads + 8 / dtOut.bits)) (span o (bytes dtOut.bits n)) js := by
  obtain ⟨js, e, g⟩ := C01_quantize_tiles (o := o) (scale := scale) (τ := τ) (zp := zp) (mode := mode) h
  exact ⟨js, e, g.balanced⟩

/-- `C61_quantize_balanced` applied to a concrete case. -/
example := C61_quantize_balanced (c := Ex.c1) (x := Ex.many) (dtIn := .f32) (dtOut := .uint8) (n := 70) (o := 1000) (scale := Ex.tenth)
    (τ := Ex.quarter) (zp := 64) (mode := .nearest) (h := by wit)

/-- C61 (dequantize). -/
theorem C61_dequantize_balanced (h : DArgs c.threads x dtIn dtOut n) (hr : Readable dtIn dtOut n x.size) :
    ∃ js, dequantize c x (bytes dtIn.bits n) dtIn o (dtOut.stride * n) dtOut scale zp op = .ok js ∧
      Balanced c.threads (dtOut.stride * (n / c.threads + 8 / dtIn.bits)) (span o (dtOut.stride * n)) js := by
  obtain ⟨js, e, g⟩ := C01_dequantize_tiles (o := o) (scale := scale) (zp := zp) (op := op) h hr
  have := g.balanced
  rw [bytes_ft' h.outFloat] at this
  exact ⟨js, e, this⟩

/-- `C61_dequantize_balanced` applied to a concrete case. -/
example := C61_dequantize_balanced (c := Ex.c1) (x := Ex.codes) (dtIn := .uint4) (dtOut := .f32) (n := 139) (o := 1000) (scale := Ex.tenth) (zp := 7)
    (op := .add) (h := by wit) (hr := by wit)

/-- C61 (fused). -/
theorem C61_fused_balanced (h : QArgs c.threads x dtIn dtOut n) :
    ∃ js, fused c x dtIn o (dtIn.stride * n) dtOut scale zp mode op τ = .ok js ∧
      Balanced c.threads (dtIn.stride * (n / c.threads + 1)) (span o (dtIn.stride * n)) js := by
  obtain ⟨js, e, g⟩ := C01_fused_tiles (o := o) (scale := scale) (τ := τ) (zp := zp) (mode := mode) (op := op) h
  have := g.balanced
  rw [bytes_ft' h.inFloat] at this
  exact ⟨js, e, this⟩

/-- `C61_fused_balanced` applied to a concrete case. -/
example := C61_fused_balanced (c := Ex.c1) (x := Ex.many) (dtIn := .f32) (dtOut := .uint8) (n := 70) (o := 1000) (scale := Ex.tenth) (τ := Ex.quarter)
    (zp := 64) (mode := .nearest) (op := .add) (h := by wit)

end

/-- The hypotheses are met: 5 floats to uint4 on 2 threads (slices of 2 and 3 elements), and on 4
threads, where two workers get nothing. -/
example : QArgs 2 (⟨20, fun _ => 0⟩) .f32 .uint4 5 ∧ QArgs 4 (⟨20, fun _ => 0⟩) .f32 .uint4 5 :=
  ⟨⟨rfl, rfl, rfl, by decide, by norm_num, by norm_num⟩, ⟨rfl, rfl, rfl, by decide, by norm_num, by norm_num⟩⟩
example : (List.range 5).map (cut 2 5 4) = [0, 0, 2, 2, 5] := by decide

end Verif.Props
