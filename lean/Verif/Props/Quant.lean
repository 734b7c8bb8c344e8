import Verif.Props.Examples
import Verif.Props.Sched
import Verif.Proofs.Arith
import Mathlib.MeasureTheory.Integral.IntervalIntegral.Basic

/-!
# What `quantize` computes: C05–C08, C12, C14–C19, C34, C36 (quantize half)
-/

namespace Verif.Props
open Spec

section
variable {c : Ctx} {x : InBuf} {dtIn dtOut : DType} {n o : Nat} {scale τ : F32} {zp : ℤ} {mode : RoundMode} {m0 : Mem}

/-! ## C05 -/

theorem bytes_lt_of {dt : DType} (hdt : dt.isQuant = true) {n j k : Nat} (hk : k < 8 / dt.bits) (h : j * (8 / dt.bits) + k < n) : j < bytes dt.bits n := by
  cases dt <;> simp only [DType.isQuant, Bool.false_eq_true] at hdt <;> simp only [DType.bits, bytes] at * <;> norm_num at * <;> omega

/-- C05. Any input: in a finished call every output byte is exactly the concatenation, lowest bits
first, of its codes; positions past the end contribute zero; every code is in range. -/
theorem C05_packing_layout (h : QArgs c.threads x dtIn dtOut n) :
    Always OnlyUb (quantize c x dtIn o (bytes dtOut.bits n) dtOut scale zp mode τ) (span o (bytes dtOut.bits n)) m0
      (fun m => (∀ i, i < n → code dtOut.bits m o i ≤ 2 ^ dtOut.bits - 1) ∧
        (∀ j, j < bytes dtOut.bits n → m (o + j) = ((List.range (8 / dtOut.bits)).map (fun k =>
          if j * (8 / dtOut.bits) + k < n then code dtOut.bits m o (j * (8 / dtOut.bits) + k) * 2 ^ (dtOut.bits * k) else 0)).sum) ∧
        (∀ t, dtOut.bits * n ≤ t → t < 8 * bytes dtOut.bits n → bit m o t = 0)) := by
  obtain ⟨js, e, _, g⟩ := quantize_ub (o := o) (scale := scale) (τ := τ) (zp := zp) (mode := mode) h m0
  refine ⟨js, e, g.safe, g.raceFree, g.progress, g.bounded, fun k d hr hd => ?_⟩
  obtain ⟨⟨_, h2, h3, _⟩, _⟩ := g.post k d hr hd
  refine ⟨fun i _ => ?_, fun j hj => ?_, h2⟩
  · have := Nat.mod_lt (d.mem (o + dtOut.bits * i / 8) / 2 ^ (dtOut.bits * i % 8)) (Nat.two_pow_pos dtOut.bits)
    unfold code; omega
  · have hb := h3 j hj
    have ho := h.outQuant
    have pad : ∀ t, dtOut.bits * n ≤ 8 * j + t → t < 8 → d.mem (o + j) / 2 ^ t % 2 = 0 := by
      intro t h1 h4
      have := h2 (8 * j + t) h1 (by omega)
      unfold bit at this
      rwa [show (8 * j + t) / 8 = j by omega, show (8 * j + t) % 8 = t by omega] at this
    cases dtOut <;> simp only [DType.isQuant, Bool.false_eq_true] at ho
    · have p0 := pad 0; have p1 := pad 1; have p2 := pad 2; have p3 := pad 3
      have p4 := pad 4; have p5 := pad 5; have p6 := pad 6; have p7 := pad 7
      have c0 : code 2 d.mem o (j * 4 + 0) = d.mem (o + j) % 4 := by
        unfold code; rw [show 2 * (j * 4 + 0) / 8 = j by omega, show 2 * (j * 4 + 0) % 8 = 0 by omega]; simp
      have c1 : code 2 d.mem o (j * 4 + 1) = d.mem (o + j) / 4 % 4 := by
        unfold code; rw [show 2 * (j * 4 + 1) / 8 = j by omega, show 2 * (j * 4 + 1) % 8 = 2 by omega]; norm_num
      have c2 : code 2 d.mem o (j * 4 + 2) = d.mem (o + j) / 16 % 4 := by
        unfold code; rw [show 2 * (j * 4 + 2) / 8 = j by omega, show 2 * (j * 4 + 2) % 8 = 4 by omega]; norm_num
      have c3 : code 2 d.mem o (j * 4 + 3) = d.mem (o + j) / 64 % 4 := by
        unfold code; rw [show 2 * (j * 4 + 3) / 8 = j by omega, show 2 * (j * 4 + 3) % 8 = 6 by omega]; norm_num
      have hr4 : List.range 4 = [0, 1, 2, 3] := by decide
      simp only [DType.bits, bytes, show 8 / 2 = 4 from rfl, hr4, List.map, List.sum_cons, List.sum_nil, c0, c1, c2, c3] at *
      norm_num at *
      by_cases hn0 : j * 4 < n <;> by_cases hn1 : j * 4 + 1 < n <;> by_cases hn2 : j * 4 + 2 < n <;> by_cases hn3 : j * 4 + 3 < n <;>
        simp only [hn0, hn1, hn2, hn3, if_true, if_false] <;> omega
    · have p4 := pad 4; have p5 := pad 5; have p6 := pad 6; have p7 := pad 7
      have c0 : code 4 d.mem o (j * 2 + 0) = d.mem (o + j) % 16 := by
        unfold code; rw [show 4 * (j * 2 + 0) / 8 = j by omega, show 4 * (j * 2 + 0) % 8 = 0 by omega]; simp
      have c1 : code 4 d.mem o (j * 2 + 1) = d.mem (o + j) / 16 % 16 := by
        unfold code; rw [show 4 * (j * 2 + 1) / 8 = j by omega, show 4 * (j * 2 + 1) % 8 = 4 by omega]; norm_num
      have hr4 : List.range 2 = [0, 1] := by decide
      simp only [DType.bits, bytes, show 8 / 4 = 2 from rfl, hr4, List.map, List.sum_cons, List.sum_nil, c0, c1] at *
      norm_num at *
      by_cases hn0 : j * 2 < n <;> by_cases hn1 : j * 2 + 1 < n <;>
        simp only [hn0, hn1, if_true, if_false] <;> omega
    · have c0 : code 8 d.mem o (j * 1 + 0) = d.mem (o + j) % 256 := by
        unfold code; rw [show 8 * (j * 1 + 0) / 8 = j by omega, show 8 * (j * 1 + 0) % 8 = 0 by omega]; simp
      have hr4 : List.range 1 = [0] := by decide
      simp only [DType.bits, bytes, show 8 / 8 = 1 from rfl, hr4, List.map, List.sum_cons, List.sum_nil, c0] at *
      norm_num at *
      have hn0 : j < n := by omega
      simp only [hn0, if_true]; omega

/-- `C05_packing_layout` applied to a concrete case. -/
example := C05_packing_layout (c := Ex.c1) (x := Ex.many) (dtIn := .f32) (dtOut := .uint8) (n := 70) (o := 1000) (scale := Ex.tenth) (τ := Ex.quarter)
    (zp := 64) (mode := .nearest) (m0 := Ex.old) (h := by wit)

/-! ## C06 -/

/-- The value of every code, exceptions included. -/
theorem quantize_vals (h : QArgs c.threads x dtIn dtOut n) (hz : Zp32 zp)
    (hd : ∀ i, i < n → Defined mode τ (scaled (elem dtIn x.data 0 i) scale) zp)
    (hx : ExactKernel c.isa dtIn dtOut mode ∨ |zp| ≤ 2 ^ 22) :
    Always NoFault (quantize c x dtIn o (bytes dtOut.bits n) dtOut scale zp mode τ) (span o (bytes dtOut.bits n)) m0
      (fun m => (∀ i, i < n → (code dtOut.bits m o i : ℤ) = sat dtOut.bits (rounded mode τ.toRat (scaled (elem dtIn x.data 0 i) scale).toRat + zp) ∨
        (¬ ExactKernel c.isa dtIn dtOut mode ∧ |(scaled (elem dtIn x.data 0 i) scale).toRat| = predHalf ∧
          (code dtOut.bits m o i : ℤ) = sat dtOut.bits ((if (scaled (elem dtIn x.data 0 i) scale).toRat < 0 then -1 else 1) + zp))) ∧
        (∀ t, dtOut.bits * n ≤ t → t < 8 * bytes dtOut.bits n → bit m o t = 0) ∧
        (∀ j, j < bytes dtOut.bits n → m (o + j) < 256)) := by
  obtain ⟨js, e, _, g⟩ := quantize_safe (o := o) h hz hd m0
  refine ⟨js, e, g.safe, g.raceFree, g.progress, g.bounded, fun k d hr hdn => ?_⟩
  obtain ⟨⟨h1, h2, h3, _⟩, _⟩ := g.post k d hr hdn
  refine ⟨fun i hi => ?_, h2, h3⟩
  obtain ⟨ft, rfl, hc⟩ := h1 i hi
  exact elemCode_val h.outQuant hz (hd i hi) hx hc

/-- C06. Nearest rounding on the portable and NEON kernels (and f32 → uint2 everywhere): every code
is `sat (roundHalfAway (fl (x * fl (1/scale))) + zero_point)`. -/
theorem C06_nearest_formula (h : QArgs c.threads x dtIn dtOut n) (hk : ExactKernel c.isa dtIn dtOut .nearest) (hz : Zp32 zp)
    (hd : ∀ i, i < n → Fits 32 (scaled (elem dtIn x.data 0 i) scale) zp) :
    Always NoFault (quantize c x dtIn o (bytes dtOut.bits n) dtOut scale zp .nearest τ) (span o (bytes dtOut.bits n)) m0
      (fun m => ∀ i, i < n → (code dtOut.bits m o i : ℤ) = sat dtOut.bits (rha (scaled (elem dtIn x.data 0 i) scale).toRat + zp)) := by
  refine (quantize_vals (mode := .nearest) h hz hd (Or.inl hk)).mono (fun _ h => h) (fun m hm i hi => ?_)
  rcases hm.1 i hi with g | ⟨g, _⟩
  · exact g
  · exact absurd hk g

/-- `C06_nearest_formula` applied to a concrete case. -/
example := C06_nearest_formula (c := Ex.c2) (x := Ex.many) (dtIn := .f32) (dtOut := .uint8) (n := 70) (o := 1000) (scale := Ex.tenth) (τ := Ex.quarter)
    (zp := 64) (m0 := Ex.old) (h := by wit) (hk := by wit) (hz := by wit) (hd := by wit)

/-- C06, any data: on the portable kernels a call that finishes has computed every code by the
formula (for a zero point outside int32, with the zero point truncated; see C34). -/
theorem C06_portable_any_data (h : QArgs c.threads x dtIn dtOut n) (hk : c.isa = .portable) (hu : ¬ (dtIn = .f32 ∧ dtOut = .uint2)) :
    Always OnlyUb (quantize c x dtIn o (bytes dtOut.bits n) dtOut scale zp .nearest τ) (span o (bytes dtOut.bits n)) m0
      (fun m => ∀ i, i < n → Fits 32 (scaled (elem dtIn x.data 0 i) scale) (wrap32 zp) ∧
        (code dtOut.bits m o i : ℤ) = sat dtOut.bits (rha (scaled (elem dtIn x.data 0 i) scale).toRat + wrap32 zp)) := by
  obtain ⟨js, e, _, g⟩ := quantize_ub (o := o) (scale := scale) (τ := τ) (zp := zp) (mode := .nearest) h m0
  refine ⟨js, e, g.safe, g.raceFree, g.progress, g.bounded, fun k d hr hdn => ?_⟩
  obtain ⟨⟨h1, _⟩, _⟩ := g.post k d hr hdn
  intro i hi
  obtain ⟨ft, rfl, hc⟩ := h1 i hi
  rcases hc with hc | ⟨_, _, ⟨hc, _⟩ | ⟨hc, _⟩⟩
  · have ho := h.outQuant
    have : qNearest32 dtOut.qmax (elem ft.dtype x.data 0 i) (invScale scale) (wrap32 zp) = .ret (code dtOut.bits d.mem o i) := by
      cases ft <;> cases dtOut <;> simp only [DType.isQuant, Bool.false_eq_true] at ho <;> first | exact absurd ⟨rfl, rfl⟩ hu | exact hc
    obtain ⟨g1, g2⟩ := qNearest32_ret.mp this
    refine ⟨g1, ?_⟩
    rw [g2, clampI_sat ho]; rfl
  · exact absurd hk hc
  · rw [hk] at hc; cases hc

/-- `C06_portable_any_data` applied to a concrete case. -/
example := C06_portable_any_data (c := Ex.c2) (x := Ex.many) (dtIn := .f32) (dtOut := .uint8) (n := 70) (o := 1000) (scale := Ex.tenth)
    (τ := Ex.quarter) (zp := 64) (m0 := Ex.old) (h := by wit) (hk := by wit) (hu := by wit)

/-! ## C07 -/

/-- C07. Every kernel, moderate zero point: the formula, or — only when the scaled value is
± the float just below one half — one step further from zero. -/
theorem C07_vector_nearest (h : QArgs c.threads x dtIn dtOut n) (hz : |zp| ≤ 2 ^ 22)
    (hd : ∀ i, i < n → Fits 32 (scaled (elem dtIn x.data 0 i) scale) zp) :
    Always NoFault (quantize c x dtIn o (bytes dtOut.bits n) dtOut scale zp .nearest τ) (span o (bytes dtOut.bits n)) m0
      (fun m => ∀ i, i < n →
        (code dtOut.bits m o i : ℤ) = sat dtOut.bits (rha (scaled (elem dtIn x.data 0 i) scale).toRat + zp) ∨
        (|(scaled (elem dtIn x.data 0 i) scale).toRat| = predHalf ∧
          (code dtOut.bits m o i : ℤ) = sat dtOut.bits ((if (scaled (elem dtIn x.data 0 i) scale).toRat < 0 then -1 else 1) + zp))) := by
  have hz' : Zp32 zp := by have := abs_le.mp hz; norm_num at this; constructor <;> norm_num <;> omega
  refine (quantize_vals (mode := .nearest) h hz' hd (Or.inr hz)).mono (fun _ h => h) (fun m hm i hi => ?_)
  rcases hm.1 i hi with g | ⟨_, g⟩
  · exact Or.inl g
  · exact Or.inr g

/-- `C07_vector_nearest` applied to a concrete case. -/
example := C07_vector_nearest (c := Ex.c1) (x := Ex.many) (dtIn := .f32) (dtOut := .uint8) (n := 70) (o := 1000) (scale := Ex.tenth) (τ := Ex.quarter)
    (zp := 64) (m0 := Ex.old) (h := by wit) (hz := by wit) (hd := by wit)

/-- C07, any 32-bit zero point: the formula, except at that float and for scaled values in
`[2^23, 2^24)`, where adding one half is inexact. -/
theorem C07_vector_nearest_any_zp (h : QArgs c.threads x dtIn dtOut n) (hz : Zp32 zp)
    (hd : ∀ i, i < n → Fits 32 (scaled (elem dtIn x.data 0 i) scale) zp) :
    Always NoFault (quantize c x dtIn o (bytes dtOut.bits n) dtOut scale zp .nearest τ) (span o (bytes dtOut.bits n)) m0
      (fun m => ∀ i, i < n → |(scaled (elem dtIn x.data 0 i) scale).toRat| ≠ predHalf →
        ¬ (2 ^ 23 ≤ |(scaled (elem dtIn x.data 0 i) scale).toRat| ∧ |(scaled (elem dtIn x.data 0 i) scale).toRat| < 2 ^ 24) →
        (code dtOut.bits m o i : ℤ) = sat dtOut.bits (rha (scaled (elem dtIn x.data 0 i) scale).toRat + zp)) := by
  obtain ⟨js, e, _, g⟩ := quantize_safe (mode := .nearest) (τ := τ) (o := o) h hz hd m0
  refine ⟨js, e, g.safe, g.raceFree, g.progress, g.bounded, fun k d hr hdn => ?_⟩
  obtain ⟨⟨h1, _⟩, _⟩ := g.post k d hr hdn
  intro i hi hp h23
  obtain ⟨ft, rfl, hc⟩ := h1 i hi
  have hs : Fits 32 (Flt.mul (elem ft.dtype x.data 0 i) (invScale scale)) zp := hd i hi
  rcases hc with hc | ⟨_, _, ⟨_, _, hc⟩ | ⟨_, _, rfl, hc⟩⟩
  · rw [scalarStep_defined (mode := .nearest) h.outQuant hz hs] at hc
    injection hc with hc
    rw [← hc, clampI_sat h.outQuant]; rfl
  · rw [hc, wrap32_of hz, vcode_eq qmax_le hs hp (by rw [not_and_or, not_le, not_lt] at h23; exact h23.elim Or.inl (fun h => Or.inr (Or.inl h))), clampI_sat h.outQuant]; rfl
  · rw [hc, wrap32_of hz, ncode_eq hs]; exact clampI_sat h.outQuant _

/-- `C07_vector_nearest_any_zp` applied to a concrete case. -/
example := C07_vector_nearest_any_zp (c := Ex.c1) (x := Ex.many) (dtIn := .f32) (dtOut := .uint8) (n := 70) (o := 1000) (scale := Ex.tenth)
    (τ := Ex.quarter) (zp := 64) (m0 := Ex.old) (h := by wit) (hz := by wit) (hd := by wit)

/-! ## Concrete calls, all schedules -/

/-- A sequential run computed by the kernel is the outcome of every schedule (C03). -/
theorem quantize_result (h : QArgs c.threads x dtIn dtOut n) {l : List Nat}
    (hr : Ex.result (quantize c x dtIn o (bytes dtOut.bits n) dtOut scale zp mode τ) o (bytes dtOut.bits n) m0 = .ok l) :
    Always NoFault (quantize c x dtIn o (bytes dtOut.bits n) dtOut scale zp mode τ) (span o (bytes dtOut.bits n)) m0
      (fun m => (List.range (bytes dtOut.bits n)).map (fun j => m (o + j)) = l) := by
  obtain ⟨js, e, _, g⟩ := C03_quantize_schedule_independent (o := o) (m0 := m0) (scale := scale) (τ := τ) (zp := zp) (mode := mode) h
  unfold Ex.result at hr
  rw [e] at hr
  simp only at hr
  cases hs : runSeq (span o (bytes dtOut.bits n)) js m0 with
  | error f => rw [hs] at hr; cases hr
  | ok m =>
    rw [hs] at hr
    simp only [Except.ok.injEq] at hr
    have := g m hs
    exact ⟨js, e, this.safe, this.raceFree, this.progress, this.bounded, fun k d hr' hd => by rw [this.post k d hr' hd]; exact hr⟩

/-! ## C08 -/

/-- C08, what holds: if no scaled value is ± the float just below one half (and the zero point is
moderate), all output bytes are determined by the input, whatever the thread count, the output
address, the CPU kernel, the previous contents. -/
theorem C08_nearest_independent_partial (hin : dtIn.isQuant = false) (hout : dtOut.isQuant = true) (hx : x.size = dtIn.stride * n)
    (hz : |zp| ≤ 2 ^ 22) (hd : ∀ i, i < n → Fits 32 (scaled (elem dtIn x.data 0 i) scale) zp)
    (hp : ∀ i, i < n → |(scaled (elem dtIn x.data 0 i) scale).toRat| ≠ predHalf) :
    ∃ out : Nat → Nat, ∀ (c : Ctx) (o : Nat) (m0 : Mem) (τ : F32), Sizes n c.threads →
      Always NoFault (quantize c x dtIn o (bytes dtOut.bits n) dtOut scale zp .nearest τ) (span o (bytes dtOut.bits n)) m0
        (fun m => ∀ j, j < bytes dtOut.bits n → m (o + j) = out j) := by
  have hz' : Zp32 zp := by have := abs_le.mp hz; norm_num at this; constructor <;> norm_num <;> omega
  have hq : ∀ (c : Ctx) (o : Nat) (m0 : Mem) (τ : F32), Sizes n c.threads →
      Always NoFault (quantize c x dtIn o (bytes dtOut.bits n) dtOut scale zp .nearest τ) (span o (bytes dtOut.bits n)) m0
        (fun m => (∀ i, i < n → (code dtOut.bits m o i : ℤ) = sat dtOut.bits (rha (scaled (elem dtIn x.data 0 i) scale).toRat + zp)) ∧
          (∀ t, dtOut.bits * n ≤ t → t < 8 * bytes dtOut.bits n → bit m o t = 0) ∧ (∀ j, j < bytes dtOut.bits n → m (o + j) < 256)) := by
    intro c o m0 τ hs
    refine (quantize_vals (mode := .nearest) ⟨hin, hout, hx, hs⟩ hz' hd (Or.inr hz)).mono (fun _ h => h) (fun m hm => ⟨fun i hi => ?_, hm.2⟩)
    rcases hm.1 i hi with g | ⟨_, g, _⟩
    · exact g
    · exact absurd g (hp i hi)
  by_cases hex : ∃ (o : Nat) (m : Mem), (∀ i, i < n → (code dtOut.bits m o i : ℤ) = sat dtOut.bits (rha (scaled (elem dtIn x.data 0 i) scale).toRat + zp)) ∧
          (∀ t, dtOut.bits * n ≤ t → t < 8 * bytes dtOut.bits n → bit m o t = 0) ∧ (∀ j, j < bytes dtOut.bits n → m (o + j) < 256)
  · obtain ⟨o1, m1, g1, g2, g3⟩ := hex
    refine ⟨fun j => m1 (o1 + j), fun c o m0 τ hs => (hq c o m0 τ hs).mono (fun _ h => h) (fun m ⟨f1, f2, f3⟩ => ?_)⟩
    exact pack_ext hout (fun i hi => by have := f1 i hi; rw [← g1 i hi] at this; exact_mod_cast this) f2 g2 f3 g3
  · exact ⟨fun _ => 0, fun c o m0 τ hs => (hq c o m0 τ hs).mono (fun _ h => h) (fun m hm => absurd ⟨o, m, hm⟩ hex)⟩

/-- `C08_nearest_independent_partial` applied to a concrete case. -/
example := C08_nearest_independent_partial (x := Ex.many) (dtIn := .f32) (dtOut := .uint8) (n := 70) (scale := Ex.tenth) (zp := 64) (hin := by wit)
    (hout := by wit) (hx := by wit) (hz := by wit) (hd := by wit) (hp := by wit)

/-! ## C12 -/

theorem elem_shift {dt : DType} (hdt : dt.isQuant = false) (data : Nat → Nat) (i : Nat) :
    elem dt (fun a => data (dt.stride * i + a)) 0 0 = elem dt data 0 i := by
  cases dt <;> simp only [DType.isQuant, Bool.true_eq_false] at hdt
  · simp only [elem, f32At, DType.stride, Nat.zero_add, Nat.mul_zero, Nat.add_zero]
  · simp only [elem, bf16At, u16At, DType.stride, Nat.zero_add, Nat.mul_zero, Nat.add_zero]

theorem bytes_one {dt : DType} (h : dt.isQuant = true) : bytes dt.bits 1 = 1 := by cases dt <;> simp [DType.isQuant] at h <;> rfl

/-- C12. Any data, scalar code paths (portable kernels, stochastic rounding, f32 → uint2): element
`i` read back from the packed output is the code that a call on `x_i` alone stores in element 0 —
whatever the number of elements, the packing, the thread counts and the schedules of both calls. -/
theorem C12_packing_lossless {c' : Ctx} {o' : Nat} {m0' : Mem} (h : QArgs c.threads x dtIn dtOut n)
    (hk : (c.isa = .portable ∧ c'.isa = .portable) ∨ mode = .stochastic ∨ (dtIn = .f32 ∧ dtOut = .uint2)) (h' : Sizes 1 c'.threads) :
    Always OnlyUb (quantize c x dtIn o (bytes dtOut.bits n) dtOut scale zp mode τ) (span o (bytes dtOut.bits n)) m0
      (fun m => ∀ i, i < n →
        Always OnlyUb (quantize c' ⟨dtIn.stride, fun a => x.data (dtIn.stride * i + a)⟩ dtIn o' 1 dtOut scale zp mode τ) (span o' 1) m0'
          (fun m' => code dtOut.bits m o i = code dtOut.bits m' o' 0)) := by
  have key : ∀ {isa : Isa} {ft : FT} {v : F32} {q : Nat}, (isa = .portable ∨ mode = .stochastic ∨ (ft.dtype = .f32 ∧ dtOut = .uint2)) →
      ElemCode isa ft dtOut mode scale τ zp v q → scalarStep ft dtOut mode scale τ zp v = .ret q := by
    intro isa ft v q hk hc
    rcases hc with hc | ⟨hm, hf, hc⟩
    · exact hc
    · exfalso
      rcases hk with hk | hk | ⟨hk, hk2⟩
      · rcases hc with ⟨hc, _⟩ | ⟨hc, _⟩
        · exact hc hk
        · rw [hk] at hc; cases hc
      · rw [hm] at hk; cases hk
      · apply hf; refine ⟨?_, hk2⟩
        cases ft
        · rfl
        · cases hk
  obtain ⟨js, e, _, g⟩ := quantize_ub (o := o) (scale := scale) (τ := τ) (zp := zp) (mode := mode) h m0
  refine ⟨js, e, g.safe, g.raceFree, g.progress, g.bounded, fun k d hr hd i hi => ?_⟩
  obtain ⟨ft, hft, hc⟩ := (g.post k d hr hd).1.1 i hi
  have h1 : QArgs c'.threads ⟨dtIn.stride, fun a => x.data (dtIn.stride * i + a)⟩ dtIn dtOut 1 := ⟨h.inFloat, h.outQuant, by simp, h'⟩
  obtain ⟨js', e', _, g'⟩ := quantize_ub (o := o') (scale := scale) (τ := τ) (zp := zp) (mode := mode) h1 m0'
  rw [bytes_one h.outQuant] at e' g'
  refine ⟨js', e', g'.safe, g'.raceFree, g'.progress, g'.bounded, fun k' d' hr' hd' => ?_⟩
  obtain ⟨ft', hft', hc'⟩ := (g'.post k' d' hr' hd').1.1 0 (by norm_num)
  have : ft' = ft := by rw [hft] at hft'; cases ft <;> cases ft' <;> first | rfl | cases hft'
  subst this
  rw [elem_shift h.inFloat] at hc'
  have a1 := key (hk.imp (fun h => h.1) (fun h => h.imp (fun h => h) (fun h => ⟨hft' ▸ h.1, h.2⟩))) hc
  have a2 := key (hk.imp (fun h => h.2) (fun h => h.imp (fun h => h) (fun h => ⟨hft' ▸ h.1, h.2⟩))) hc'
  rw [a1] at a2
  injection a2

/-- `C12_packing_lossless` applied to a concrete case. -/
example := C12_packing_lossless (c := Ex.c2) (x := Ex.many) (dtIn := .f32) (dtOut := .uint8) (n := 70) (o := 1000) (scale := Ex.tenth)
    (τ := Ex.quarter) (zp := 64) (mode := .nearest) (m0 := Ex.old) (c' := ⟨.portable, 4, .none⟩) (o' := 3000) (m0' := Ex.old) (h := by wit)
    (hk := by wit) (h' := by wit)

/-! ## C14 -/

theorem invScale_nonneg {scale : F32} (h0 : 0 < scale.toRat) (hf : scale.isFin = true) : 0 ≤ (invScale scale).toRat := by
  have : (invScale scale).toRat = flr f32 (f1.toRat / scale.toRat) := div_toRat (by decide) hf h0.ne'
  rw [this]
  apply flr_nonneg
  have : f1.toRat = 1 := by decide +kernel
  rw [this]; positivity

theorem defined_fin {p : F32} (h : Defined mode τ p zp) : p.isFin = true := by cases mode <;> exact h.1
theorem defined_tau {p : F32} (h : Defined mode τ p zp) : mode = .stochastic → 0 ≤ τ.toRat := by rintro rfl; exact h.2.2.2

theorem scaled_toRat {v scale : F32} (h : (scaled v scale).isFin = true) :
    (scaled v scale).toRat = flr f32 (v.toRat * (invScale scale).toRat) :=
  have := mul_fin_right (a := v) (b := invScale scale) h
  mul_toRat this.1 this.2

theorem scaled_mono {v w scale : F32} (h0 : 0 < scale.toRat) (hf : scale.isFin = true) (hv : (scaled v scale).isFin = true)
    (hw : (scaled w scale).isFin = true) (h : v.toRat ≤ w.toRat) : (scaled v scale).toRat ≤ (scaled w scale).toRat := by
  rw [scaled_toRat hv, scaled_toRat hw]
  exact flr_mono (mul_le_mul_of_nonneg_right h (invScale_nonneg h0 hf))

/-- C14. Monotone: on every kernel, both rounding modes (one threshold), wherever no scaled value is
± the float just below one half on a vector kernel (see C08). -/
theorem C14_monotone_partial (h : QArgs c.threads x dtIn dtOut n) (h0 : 0 < scale.toRat) (hf : scale.isFin = true) (hz : Zp32 zp)
    (hd : ∀ i, i < n → Defined mode τ (scaled (elem dtIn x.data 0 i) scale) zp)
    (hx : ExactKernel c.isa dtIn dtOut mode ∨ (|zp| ≤ 2 ^ 22 ∧ ∀ i, i < n → |(scaled (elem dtIn x.data 0 i) scale).toRat| ≠ predHalf)) :
    Always NoFault (quantize c x dtIn o (bytes dtOut.bits n) dtOut scale zp mode τ) (span o (bytes dtOut.bits n)) m0
      (fun m => ∀ i j, i < n → j < n → (elem dtIn x.data 0 i).toRat ≤ (elem dtIn x.data 0 j).toRat →
        code dtOut.bits m o i ≤ code dtOut.bits m o j) := by
  refine (quantize_vals h hz hd (hx.imp (fun h => h) (fun h => h.1))).mono (fun _ h => h) (fun m hm i j hi hj hij => ?_)
  have val : ∀ i, i < n → (code dtOut.bits m o i : ℤ) = sat dtOut.bits (rounded mode τ.toRat (scaled (elem dtIn x.data 0 i) scale).toRat + zp) := by
    intro i hi
    rcases hm.1 i hi with g | ⟨g1, g2, _⟩
    · exact g
    · rcases hx with hx | ⟨_, hx⟩
      · exact absurd hx g1
      · exact absurd g2 (hx i hi)
  have h1 := val i hi
  have h2 := val j hj
  have h3 := rounded_mono (mode := mode) (defined_tau (hd i hi)) (scaled_mono h0 hf (defined_fin (hd i hi)) (defined_fin (hd j hj)) hij)
  have h4 := sat_mono (b := dtOut.bits) (add_le_add_left h3 zp)
  rw [← h1, ← h2] at h4
  exact_mod_cast h4

/-- `C14_monotone_partial` applied to a concrete case. -/
example := C14_monotone_partial (c := Ex.c1) (x := Ex.many) (dtIn := .f32) (dtOut := .uint8) (n := 70) (o := 1000) (scale := Ex.tenth)
    (τ := Ex.quarter) (zp := 64) (mode := .nearest) (m0 := Ex.old) (h := by wit) (h0 := by wit) (hf := by wit) (hz := by wit) (hd := by wit)
    (hx := by wit)

/-! ## C15 -/

theorem sat_top {b : Nat} {z : ℤ} (h : 2 ^ b - 1 ≤ z) : sat b z = 2 ^ b - 1 := by
  have : (1:ℤ) ≤ 2 ^ b := one_le_pow₀ (by norm_num)
  unfold sat; omega
theorem sat_bot {b : Nat} {z : ℤ} (h : z ≤ 0) : sat b z = 0 := by
  have : (1:ℤ) ≤ 2 ^ b := one_le_pow₀ (by norm_num)
  unfold sat; omega

/-- C15, what holds: while the scaled values are in the range in which the scalar code is defined,
values at or above the top code get the top code and values at or below zero get code zero, on
every kernel and in both rounding modes. -/
theorem C15_saturates_partial (h : QArgs c.threads x dtIn dtOut n) (hz : Zp32 zp)
    (hd : ∀ i, i < n → Defined mode τ (scaled (elem dtIn x.data 0 i) scale) zp)
    (hx : ExactKernel c.isa dtIn dtOut mode ∨ |zp| ≤ 2 ^ 22) :
    Always NoFault (quantize c x dtIn o (bytes dtOut.bits n) dtOut scale zp mode τ) (span o (bytes dtOut.bits n)) m0
      (fun m => ∀ i, i < n →
        (2 ^ dtOut.bits - 1 ≤ (scaled (elem dtIn x.data 0 i) scale).toRat + zp → code dtOut.bits m o i = 2 ^ dtOut.bits - 1) ∧
        ((scaled (elem dtIn x.data 0 i) scale).toRat + zp ≤ 0 → code dtOut.bits m o i = 0)) := by
  refine (quantize_vals h hz hd hx).mono (fun _ h => h) (fun m hm i hi => ?_)
  have hcast : ((2 ^ dtOut.bits - 1 : ℕ) : ℤ) = 2 ^ dtOut.bits - 1 := by
    rw [Nat.cast_sub Nat.one_le_two_pow]; push_cast; rfl
  have htau := defined_tau (hd i hi)
  obtain ⟨hm1, -⟩ := hm
  have hm1 := hm1 i hi
  generalize (scaled (elem dtIn x.data 0 i) scale).toRat = p at *
  constructor
  · intro hp
    have hfl : 2 ^ dtOut.bits - 1 - zp ≤ ⌊p⌋ := Int.le_floor.mpr (by push_cast; linarith)
    have : (code dtOut.bits m o i : ℤ) = 2 ^ dtOut.bits - 1 := by
      rcases hm1 with g | ⟨_, g1, g2⟩
      · rw [g]; exact sat_top (by have := (rounded_bounds (p := p) htau).1; omega)
      · rw [g2]; apply sat_top
        unfold predHalf at g1
        split
        · rename_i hneg
          rw [abs_of_neg hneg] at g1
          have : ⌊p⌋ = -1 := by rw [Int.floor_eq_iff]; push_cast; constructor <;> linarith
          omega
        · rename_i hneg
          rw [abs_of_nonneg (not_lt.mp hneg)] at g1
          have : ⌊p⌋ = 0 := by rw [Int.floor_eq_iff]; push_cast; constructor <;> linarith
          omega
    rw [← hcast] at this
    exact_mod_cast this
  · intro hp
    have hfl : ⌈p⌉ ≤ - zp := Int.ceil_le.mpr (by push_cast; linarith)
    have : (code dtOut.bits m o i : ℤ) = 0 := by
      rcases hm1 with g | ⟨_, g1, g2⟩
      · rw [g]; exact sat_bot (by have := (rounded_bounds (p := p) htau).2; omega)
      · rw [g2]; apply sat_bot
        unfold predHalf at g1
        split
        · rename_i hneg
          rw [abs_of_neg hneg] at g1
          have : ⌈p⌉ = 0 := by rw [Int.ceil_eq_iff]; push_cast; constructor <;> linarith
          omega
        · rename_i hneg
          rw [abs_of_nonneg (not_lt.mp hneg)] at g1
          have : ⌈p⌉ = 1 := by rw [Int.ceil_eq_iff]; push_cast; constructor <;> linarith
          omega
    exact_mod_cast this

/-- `C15_saturates_partial` applied to a concrete case. -/
example := C15_saturates_partial (c := Ex.c1) (x := Ex.many) (dtIn := .f32) (dtOut := .uint8) (n := 70) (o := 1000) (scale := Ex.tenth)
    (τ := Ex.quarter) (zp := 64) (mode := .nearest) (m0 := Ex.old) (h := by wit) (hz := by wit) (hd := by wit) (hx := by wit)

/-! ## C16 -/

/-- C16. Nearest rounding, no saturation: the code is within half a step of the scaled value
(`1/2 + 2^-25` on vector kernels). -/
theorem C16_nearest_error (h : QArgs c.threads x dtIn dtOut n) (hz : Zp32 zp)
    (hd : ∀ i, i < n → Fits 32 (scaled (elem dtIn x.data 0 i) scale) zp)
    (hx : ExactKernel c.isa dtIn dtOut .nearest ∨ |zp| ≤ 2 ^ 22) :
    Always NoFault (quantize c x dtIn o (bytes dtOut.bits n) dtOut scale zp .nearest τ) (span o (bytes dtOut.bits n)) m0
      (fun m => ∀ i, i < n → 0 ≤ rha (scaled (elem dtIn x.data 0 i) scale).toRat + zp →
        rha (scaled (elem dtIn x.data 0 i) scale).toRat + zp ≤ 2 ^ dtOut.bits - 1 →
        |((code dtOut.bits m o i : ℤ) - zp : ℚ) - (scaled (elem dtIn x.data 0 i) scale).toRat| ≤ 1 / 2 + 1 / 2 ^ 25 ∧
        (ExactKernel c.isa dtIn dtOut .nearest →
          |((code dtOut.bits m o i : ℤ) - zp : ℚ) - (scaled (elem dtIn x.data 0 i) scale).toRat| ≤ 1 / 2)) := by
  refine (quantize_vals (mode := .nearest) h hz hd hx).mono (fun _ h => h) (fun m hm i hi hlo hhi => ?_)
  have hm1 := hm.1 i hi
  generalize (scaled (elem dtIn x.data 0 i) scale).toRat = p at *
  have herr := rha_err p
  have good : (code dtOut.bits m o i : ℤ) = sat dtOut.bits (rha p + zp) → |((code dtOut.bits m o i : ℤ) - zp : ℚ) - p| ≤ 1 / 2 := by
    intro g
    rw [g, sat_id hlo hhi]
    push_cast
    rwa [add_sub_cancel_right]
  rcases hm1 with g | ⟨g0, g1, g2⟩
  · exact ⟨(good g).trans (by norm_num), fun _ => good g⟩
  · refine ⟨?_, fun h => absurd h g0⟩
    unfold predHalf at g1
    by_cases hneg : p < 0
    · rw [abs_of_neg hneg] at g1
      have hr : rha p = 0 := rha_near (z := 0) (by push_cast; rw [abs_lt]; constructor <;> linarith)
      rw [if_pos hneg] at g2
      rw [hr, zero_add] at hlo hhi
      have : (code dtOut.bits m o i : ℤ) = zp - 1 ∨ (code dtOut.bits m o i : ℤ) = zp := by rw [g2]; unfold sat; omega
      rcases this with h | h <;> rw [h] <;> push_cast <;> rw [abs_le] <;> constructor <;> linarith
    · rw [abs_of_nonneg (not_lt.mp hneg)] at g1
      have hr : rha p = 0 := rha_near (z := 0) (by push_cast; rw [abs_lt]; constructor <;> linarith)
      rw [if_neg hneg] at g2
      rw [hr, zero_add] at hlo hhi
      have : (code dtOut.bits m o i : ℤ) = zp + 1 ∨ (code dtOut.bits m o i : ℤ) = zp := by rw [g2]; unfold sat; omega
      rcases this with h | h <;> rw [h] <;> push_cast <;> rw [abs_le] <;> constructor <;> linarith

/-- `C16_nearest_error` applied to a concrete case. -/
example := C16_nearest_error (c := Ex.c1) (x := Ex.many) (dtIn := .f32) (dtOut := .uint8) (n := 70) (o := 1000) (scale := Ex.tenth) (τ := Ex.quarter)
    (zp := 64) (m0 := Ex.old) (h := by wit) (hz := by wit) (hd := by wit) (hx := by wit)

/-! ## C17 -/

/-- C17. Stochastic rounding, all kernels: with `p` the scaled value and `t` its truncation, the
code is `sat (t + zp)` when the threshold is at least the fraction, and `sat` of one step further
from zero otherwise; integers are never moved. -/
theorem C17_stochastic_neighbours (h : QArgs c.threads x dtIn dtOut n) (hz : Zp32 zp) (hτ : τ.isFin = true) (hτ0 : 0 ≤ τ.toRat)
    (hd : ∀ i, i < n → (scaled (elem dtIn x.data 0 i) scale).isFin = true ∧ |(scaled (elem dtIn x.data 0 i) scale).toRat| ≤ 2 ^ 62) :
    Always NoFault (quantize c x dtIn o (bytes dtOut.bits n) dtOut scale zp .stochastic τ) (span o (bytes dtOut.bits n)) m0
      (fun m => ∀ i, i < n →
        (|(scaled (elem dtIn x.data 0 i) scale).toRat - rtz (scaled (elem dtIn x.data 0 i) scale).toRat| ≤ τ.toRat →
          (code dtOut.bits m o i : ℤ) = sat dtOut.bits (rtz (scaled (elem dtIn x.data 0 i) scale).toRat + zp)) ∧
        (τ.toRat < |(scaled (elem dtIn x.data 0 i) scale).toRat - rtz (scaled (elem dtIn x.data 0 i) scale).toRat| →
          (code dtOut.bits m o i : ℤ) = sat dtOut.bits (rtz (scaled (elem dtIn x.data 0 i) scale).toRat +
            (if (scaled (elem dtIn x.data 0 i) scale).toRat < 0 then -1 else 1) + zp)) ∧
        (∀ z : ℤ, (scaled (elem dtIn x.data 0 i) scale).toRat = z → (code dtOut.bits m o i : ℤ) = sat dtOut.bits (z + zp))) := by
  refine (quantize_vals (mode := .stochastic) h hz (fun i hi => ⟨(hd i hi).1, (hd i hi).2, hτ, hτ0⟩) (Or.inl (Or.inr (Or.inr (Or.inl rfl))))).mono
    (fun _ h => h) (fun m hm i hi => ?_)
  have hm1 := (hm.1 i hi).resolve_right (fun h => h.1 (Or.inr (Or.inr (Or.inl rfl))))
  generalize (scaled (elem dtIn x.data 0 i) scale).toRat = p at *
  have hm1 : (code dtOut.bits m o i : ℤ) = sat dtOut.bits (sround τ.toRat p + zp) := hm1
  refine ⟨fun hle => ?_, fun hlt => ?_, fun z hpz => ?_⟩
  · rw [hm1]; unfold sround; rw [if_neg (not_lt.mpr hle)]
  · rw [hm1]; unfold sround; rw [if_pos hlt]
    congr 1; split <;> ring
  · subst hpz
    rw [hm1]; unfold sround
    rw [rtz_int, sub_self, abs_zero, if_neg (not_lt.mpr hτ0)]

/-- `C17_stochastic_neighbours` applied to a concrete case. -/
example := C17_stochastic_neighbours (c := Ex.c1) (x := Ex.many) (dtIn := .f32) (dtOut := .uint8) (n := 70) (o := 1000) (scale := Ex.tenth)
    (τ := Ex.quarter) (zp := 64) (m0 := Ex.old) (h := by wit) (hz := by wit) (hτ := by wit) (hτ0 := by wit) (hd := by wit)

/-! ## C18 -/

/-- The mean of stochastic rounding over a finite list of equally likely thresholds: truncation plus
(signed) the frequency of thresholds below the fraction. -/
theorem sround_mean (ts : List ℚ) (p : ℚ) :
    (ts.map (fun t => ((sround t p : ℤ) : ℚ))).sum =
      ts.length * rtz p + (if p < 0 then -1 else 1) * (ts.countP (fun t => decide (t < |p - rtz p|)) : ℚ) := by
  induction ts with
  | nil => simp
  | cons t ts ih =>
    rw [List.map_cons, List.sum_cons, ih, List.countP_cons, List.length_cons]
    unfold sround
    split <;> rename_i h
    · simp only [h, decide_true, if_true]
      split <;> push_cast <;> ring
    · simp only [h, decide_false, Bool.false_eq_true, if_false]
      push_cast; ring

/-- The thresholds `k/N`, `k < N`. -/
def grid (N : Nat) : List ℚ := (List.range N).map (fun k : ℕ => (k : ℚ) / N)

theorem countP_grid {N : Nat} (hN : 0 < N) {a : ℚ} (h0 : 0 ≤ a) (h1 : a ≤ 1) :
    ((grid N).countP (fun t => decide (t < a)) : ℤ) = ⌈a * N⌉ := by
  have hN' : (0:ℚ) < N := by exact_mod_cast hN
  have hc0 : 0 ≤ ⌈a * N⌉ := Int.ceil_nonneg (by positivity)
  have hcN : ⌈a * N⌉ ≤ N := Int.ceil_le.mpr (by push_cast; nlinarith)
  obtain ⟨k, hk⟩ : ∃ k : ℕ, ⌈a * N⌉ = k := ⟨_, (Int.toNat_of_nonneg hc0).symm⟩
  have hkN : k ≤ N := by rw [hk] at hcN; exact_mod_cast hcN
  rw [hk]
  have : ∀ M, M ≤ N → ((List.range M).countP (fun i : ℕ => decide ((i:ℚ) / N < a))) = min M k := by
    intro M hM
    induction M with
    | zero => simp
    | succ M ih =>
      rw [List.range_succ, List.countP_append, ih (by omega), List.countP_singleton]
      have hiff : ((M:ℚ) / N < a) ↔ M < k := by
        rw [div_lt_iff₀ hN']
        have : ((M:ℤ) < ⌈a * N⌉) ↔ ((M:ℤ):ℚ) < a * N := Int.lt_ceil
        rw [hk] at this
        push_cast at this
        rw [← this]
        exact Nat.cast_lt
      by_cases hlt : M < k
      · simp only [hiff.mpr hlt, decide_true, if_true]; omega
      · simp only [mt hiff.mp hlt, decide_false, Bool.false_eq_true, if_false]; omega
  have h := this N le_rfl
  unfold grid
  rw [List.countP_map]
  have e : (fun t => decide (t < a)) ∘ (fun k : ℕ => (k:ℚ) / N) = fun i : ℕ => decide ((i:ℚ) / N < a) := rfl
  rw [e, h, Nat.min_eq_right hkN]

/-- The mean over the grid `k/N` is within `1/N` of `p`, and equal to `p` when the fraction is a
multiple of `1/N`. -/
theorem sround_grid_mean {N : Nat} (hN : 0 < N) (p : ℚ) :
    |((grid N).map (fun t => ((sround t p : ℤ) : ℚ))).sum / N - p| < 1 / N ∧
    ((∃ z : ℤ, p * N = z) → ((grid N).map (fun t => ((sround t p : ℤ) : ℚ))).sum / N = p) := by
  have hN' : (0:ℚ) < N := by exact_mod_cast hN
  rw [sround_mean]
  have hlen : (grid N).length = N := by simp [grid]
  have hfrac : 0 ≤ |p - rtz p| ∧ |p - rtz p| ≤ 1 ∧ p = rtz p + (if p < 0 then -1 else 1) * |p - rtz p| := by
    rcases lt_or_ge p 0 with h | h
    · have e : p - rtz p ≤ 0 := by rw [rtz_neg' h]; push_cast; linarith [Int.floor_le (-p)]
      have e2 : -1 ≤ p - rtz p := by rw [rtz_neg' h]; push_cast; linarith [Int.lt_floor_add_one (-p)]
      rw [if_pos h, abs_of_nonpos e]
      exact ⟨by linarith, by linarith, by ring⟩
    · have e : 0 ≤ p - rtz p := by rw [rtz_nonneg h]; linarith [Int.floor_le p]
      have e2 : p - rtz p ≤ 1 := by rw [rtz_nonneg h]; linarith [Int.lt_floor_add_one p]
      rw [if_neg (not_lt.mpr h), abs_of_nonneg e]
      exact ⟨e, e2, by ring⟩
  obtain ⟨f0, f1, fe⟩ := hfrac
  have hcount := countP_grid hN f0 f1
  have hcq : (((grid N).countP (fun t => decide (t < |p - rtz p|)) : ℕ) : ℚ) = ((⌈|p - rtz p| * N⌉ : ℤ) : ℚ) := by rw [← hcount]; push_cast; rfl
  rw [hlen, hcq]
  set a := |p - rtz p| with ha
  set s : ℚ := if p < 0 then -1 else 1 with hs
  have hs2 : |s| = 1 := by rw [hs]; split <;> simp
  have hdiff : (N * (rtz p : ℚ) + s * ((⌈a * N⌉ : ℤ) : ℚ)) / N - p = s * ((((⌈a * N⌉ : ℤ) : ℚ) - a * N) / N) := by
    rw [div_sub' hN'.ne', ← mul_div_assoc]
    congr 1
    rw [show (N:ℚ) * p = N * (rtz p + s * a) by rw [← fe]]
    ring
  constructor
  · rw [hdiff, abs_mul, hs2, one_mul, abs_div, abs_of_pos hN', div_lt_div_iff_of_pos_right hN', abs_lt]
    have h1 := Int.le_ceil (a * N)
    have h2 := Int.ceil_lt_add_one (a * N)
    constructor <;> linarith
  · rintro ⟨z, hz⟩
    have : ∃ y : ℤ, a * N = y := by
      have hss : s * s = 1 := by rw [hs]; split <;> norm_num
      have e : a * N = s * (p - rtz p) * N := by
        rw [show p - rtz p = s * a by linarith [fe], ← mul_assoc s, hss, one_mul]
      rw [e]
      have : s * (p - rtz p) * N = s * (z - rtz p * N) := by rw [← hz]; ring
      rw [this, hs]
      split
      · exact ⟨-(z - rtz p * N), by push_cast; ring⟩
      · exact ⟨z - rtz p * N, by push_cast; ring⟩
    obtain ⟨y, hy⟩ := this
    have := hdiff
    rw [hy, Int.ceil_intCast, sub_self, zero_div, mul_zero] at this
    rw [hy, Int.ceil_intCast]
    linarith

theorem countP_mono' {l : List Nat} {P Q : Nat → Bool} (h : ∀ k ∈ l, P k = true → Q k = true) : l.countP P ≤ l.countP Q := by
  induction l with
  | nil => simp
  | cons a l ih =>
    rw [List.countP_cons, List.countP_cons]
    have h1 := ih (fun k hk => h k (List.mem_cons_of_mem _ hk))
    have h2 := h a List.mem_cons_self
    by_cases hp : P a = true
    · rw [if_pos hp, if_pos (h2 hp)]; omega
    · rw [if_neg hp]; omega

/-- Thresholds within `ε` of the uniform grid: the frequency of thresholds below `a` is within
`ε + 1/N` of `a`. -/
theorem countP_near {N : Nat} (hN : 0 < N) {a ε : ℚ} (h0 : 0 ≤ a) (h1 : a ≤ 1) (hε : 0 ≤ ε) (t : Nat → ℚ) (ht : ∀ k, k < N → |t k - k / N| ≤ ε) :
    |((List.range N).countP (fun k => decide (t k < a)) : ℚ) - a * N| ≤ ε * N + 1 := by
  have hN' : (0:ℚ) < N := by exact_mod_cast hN
  have grid_eq : ∀ b : ℚ, (grid N).countP (fun t => decide (t < b)) = (List.range N).countP (fun k : ℕ => decide ((k:ℚ) / N < b)) := by
    intro b; unfold grid; rw [List.countP_map]; rfl
  set C := (List.range N).countP (fun k => decide (t k < a)) with hC
  have hCN : C ≤ N := by have := List.countP_le_length (p := fun k => decide (t k < a)) (l := List.range N); simpa [hC] using this
  have hlow : a * N - ε * N ≤ C := by
    rcases le_or_gt (a - ε) 0 with h | h
    · have : (a - ε) * N ≤ 0 := mul_nonpos_of_nonpos_of_nonneg h hN'.le
      have : (0:ℚ) ≤ C := by positivity
      linarith
    · have hc := countP_grid hN (a := a - ε) h.le (by linarith)
      rw [grid_eq] at hc
      have hle := countP_mono' (l := List.range N) (P := fun k : ℕ => decide ((k:ℚ) / N < a - ε)) (Q := fun k => decide (t k < a)) (by
        intro k hk hp
        have := abs_le.mp (ht k (List.mem_range.mp hk))
        simp only [decide_eq_true_eq] at *
        linarith)
      have h3 : ((⌈(a - ε) * N⌉ : ℤ) : ℚ) ≤ C := by
        rw [← hc]; exact_mod_cast hle
      linarith [Int.le_ceil ((a - ε) * N)]
  have hupp : (C:ℚ) ≤ a * N + ε * N + 1 := by
    rcases le_or_gt (a + ε) 1 with h | h
    · have hc := countP_grid hN (a := a + ε) (by linarith) h
      rw [grid_eq] at hc
      have hle := countP_mono' (l := List.range N) (P := fun k => decide (t k < a)) (Q := fun k : ℕ => decide ((k:ℚ) / N < a + ε)) (by
        intro k hk hp
        have := abs_le.mp (ht k (List.mem_range.mp hk))
        simp only [decide_eq_true_eq] at *
        linarith)
      have h3 : (C:ℚ) ≤ ((⌈(a + ε) * N⌉ : ℤ) : ℚ) := by
        rw [← hc]; exact_mod_cast hle
      linarith [Int.ceil_lt_add_one ((a + ε) * N)]
    · have : (N:ℚ) ≤ (a + ε) * N := by nlinarith
      have : (C:ℚ) ≤ N := by exact_mod_cast hCN
      linarith
  rw [abs_le]; constructor <;> linarith

theorem frac_facts (p : ℚ) : 0 ≤ |p - rtz p| ∧ |p - rtz p| ≤ 1 ∧ p = rtz p + (if p < 0 then -1 else 1) * |p - rtz p| := by
  rcases lt_or_ge p 0 with h | h
  · have e : p - rtz p ≤ 0 := by rw [rtz_neg' h]; push_cast; linarith [Int.floor_le (-p)]
    have e2 : -1 ≤ p - rtz p := by rw [rtz_neg' h]; push_cast; linarith [Int.lt_floor_add_one (-p)]
    rw [if_pos h, abs_of_nonpos e]
    exact ⟨by linarith, by linarith, by ring⟩
  · have e : 0 ≤ p - rtz p := by rw [rtz_nonneg h]; linarith [Int.floor_le p]
    have e2 : p - rtz p ≤ 1 := by rw [rtz_nonneg h]; linarith [Int.lt_floor_add_one p]
    rw [if_neg (not_lt.mpr h), abs_of_nonneg e]
    exact ⟨e, e2, by ring⟩

theorem _root_.Verif.Spec.Always.outcome {E : Fault → Prop} {call : Except Fault (List (Prog Unit))} {w : Win} {m : Mem} {Q : Mem → Prop}
    (h : Always E call w m0 Q) (ho : Outcome call w m0 m) : Q m := by
  obtain ⟨js, e, g⟩ := h
  obtain ⟨js', k, d, e', hr, hd, rfl⟩ := ho
  rw [e] at e'; cases e'
  exact g.post k d hr hd

/-- C18. `N` stochastic calls on the same data whose thresholds are within `ε` of the uniform grid
`0, 1/N, …` (in any order of the calls, under any schedules): where the code does not saturate, the
mean of `code - zero_point` is within `ε + 1/N` of the scaled value. -/
theorem C18_stochastic_mean {N : Nat} {ε : ℚ} {τs : Nat → F32} {m0s ms : Nat → Mem} (h : QArgs c.threads x dtIn dtOut n) (hz : Zp32 zp)
    (hN : 0 < N) (hε : 0 ≤ ε) (hτ : ∀ k, k < N → (τs k).isFin = true ∧ 0 ≤ (τs k).toRat ∧ |(τs k).toRat - k / N| ≤ ε)
    (hd : ∀ i, i < n → (scaled (elem dtIn x.data 0 i) scale).isFin = true ∧ |(scaled (elem dtIn x.data 0 i) scale).toRat| ≤ 2 ^ 62)
    (ho : ∀ k, k < N → Outcome (quantize c x dtIn o (bytes dtOut.bits n) dtOut scale zp .stochastic (τs k)) (span o (bytes dtOut.bits n)) (m0s k) (ms k))
    {i : Nat} (hi : i < n) (hlo : 0 ≤ ⌊(scaled (elem dtIn x.data 0 i) scale).toRat⌋ + zp)
    (hhi : ⌈(scaled (elem dtIn x.data 0 i) scale).toRat⌉ + zp ≤ 2 ^ dtOut.bits - 1) :
    |((List.range N).map (fun k => ((code dtOut.bits (ms k) o i : ℤ) - zp : ℚ))).sum / N - (scaled (elem dtIn x.data 0 i) scale).toRat| ≤ ε + 1 / N := by
  have hN' : (0:ℚ) < N := by exact_mod_cast hN
  have val : ∀ k, k < N → ((code dtOut.bits (ms k) o i : ℤ) : ℤ) = sround (τs k).toRat (scaled (elem dtIn x.data 0 i) scale).toRat + zp := by
    intro k hk
    obtain ⟨h1, h2, _⟩ := hτ k hk
    have hq := (quantize_vals (mode := .stochastic) (τ := τs k) (m0 := m0s k) (o := o) h hz (fun i hi => ⟨(hd i hi).1, (hd i hi).2, h1, h2⟩)
      (Or.inl (Or.inr (Or.inr (Or.inl rfl))))).outcome (ho k hk)
    have hq := (hq.1 i hi).resolve_right (fun h => h.1 (Or.inr (Or.inr (Or.inl rfl))))
    rw [hq]
    have hb := sround_bounds (τ := (τs k).toRat) (p := (scaled (elem dtIn x.data 0 i) scale).toRat) h2
    exact sat_id (show 0 ≤ sround _ _ + zp by omega) (show sround _ _ + zp ≤ _ by omega)
  generalize (scaled (elem dtIn x.data 0 i) scale).toRat = p at *
  have hsum : ((List.range N).map (fun k => ((code dtOut.bits (ms k) o i : ℤ) - zp : ℚ))).sum =
      (((List.range N).map (fun k => (τs k).toRat)).map (fun t => ((sround t p : ℤ) : ℚ))).sum := by
    rw [List.map_map]
    congr 1
    apply List.map_congr_left
    intro k hk
    rw [val k (List.mem_range.mp hk)]
    simp
  rw [hsum, sround_mean]
  obtain ⟨f0, f1, fe⟩ := frac_facts p
  have hc := countP_near hN f0 f1 hε (fun k => (τs k).toRat) (fun k hk => (hτ k hk).2.2)
  rw [List.countP_map, List.length_map, List.length_range]
  have e : (List.range N).countP ((fun t => decide (t < |p - rtz p|)) ∘ fun k => (τs k).toRat) =
    (List.range N).countP (fun k => decide ((τs k).toRat < |p - rtz p|)) := rfl
  rw [e]
  generalize ((List.range N).countP (fun k => decide ((τs k).toRat < |p - rtz p|)) : ℚ) = C at *
  set a := |p - rtz p|
  set s : ℚ := if p < 0 then -1 else 1 with hs
  have hs2 : |s| = 1 := by rw [hs]; split <;> simp
  have hdiff : (N * (rtz p : ℚ) + s * C) / N - p = s * ((C - a * N) / N) := by
    rw [div_sub' hN'.ne', ← mul_div_assoc]
    congr 1
    rw [show (N:ℚ) * p = N * (rtz p + s * a) by rw [← fe]]
    ring
  rw [hdiff, abs_mul, hs2, one_mul, abs_div, abs_of_pos hN', div_le_iff₀ hN', add_mul, one_div, inv_mul_cancel₀ hN'.ne']
  exact hc

/-- C18, ideal threshold: if the threshold is uniform on `[0,1)` (Lebesgue), the expectation of the
value rounded by the rule of C17 is exactly the scaled value. -/
theorem C18_uniform_expectation (p : ℚ) :
    ∫ t in (0:ℝ)..1, (if t < ((|p - rtz p| : ℚ) : ℝ) then ((rtz p + (if p < 0 then -1 else 1) : ℤ) : ℝ) else ((rtz p : ℤ) : ℝ)) = (p : ℝ) := by
  obtain ⟨f0, f1, fe⟩ := frac_facts p
  set a := |p - rtz p|
  have ha0 : (0:ℝ) ≤ ((a : ℚ) : ℝ) := by exact_mod_cast f0
  have ha1 : ((a : ℚ) : ℝ) ≤ 1 := by exact_mod_cast f1
  set u : ℝ := ((rtz p + (if p < 0 then -1 else 1) : ℤ) : ℝ) with hu
  set v : ℝ := ((rtz p : ℤ) : ℝ) with hv
  have i1 : ∫ t in (0:ℝ)..(a:ℝ), (if t < ((a : ℚ) : ℝ) then u else v) = a * u := by
    rw [intervalIntegral.integral_of_le ha0, MeasureTheory.integral_Ioc_eq_integral_Ioo]
    rw [MeasureTheory.setIntegral_congr_fun (g := fun _ => u) measurableSet_Ioo (fun t ht => by simp only; rw [if_pos ht.2])]
    simp [ha0]
  have i2 : ∫ t in (a:ℝ)..1, (if t < ((a : ℚ) : ℝ) then u else v) = (1 - a) * v := by
    rw [intervalIntegral.integral_of_le ha1]
    rw [MeasureTheory.setIntegral_congr_fun (g := fun _ => v) measurableSet_Ioc (fun t ht => by simp only; rw [if_neg (not_lt.mpr ht.1.le)])]
    simp [ha1]
  have ii1 : IntervalIntegrable (fun t => if t < ((a : ℚ) : ℝ) then u else v) MeasureTheory.volume 0 a := by
    rw [intervalIntegrable_iff_integrableOn_Ioo_of_le ha0]
    exact (MeasureTheory.integrableOn_congr_fun (g := fun _ => u) (fun t ht => by simp only; rw [if_pos ht.2]) measurableSet_Ioo).mpr (by simp)
  have ii2 : IntervalIntegrable (fun t => if t < ((a : ℚ) : ℝ) then u else v) MeasureTheory.volume a 1 := by
    rw [intervalIntegrable_iff_integrableOn_Ioc_of_le ha1]
    exact (MeasureTheory.integrableOn_congr_fun (g := fun _ => v) (fun t ht => by simp only; rw [if_neg (not_lt.mpr ht.1.le)]) measurableSet_Ioc).mpr (by simp)
  rw [← intervalIntegral.integral_add_adjacent_intervals ii1 ii2, i1, i2]
  have : (p:ℝ) = v + (if p < 0 then -1 else 1) * a := by
    have := congrArg (fun q : ℚ => (q:ℝ)) fe
    rw [this, hv]
    push_cast
    split <;> simp
  rw [this, hu]
  push_cast
  split <;> push_cast <;> ring

/-! ## C19 -/

/-- C19. Any data: within one stochastic call, equal inputs get equal codes, at any two positions
and on any workers. -/
theorem C19_equal_inputs_equal_codes (h : QArgs c.threads x dtIn dtOut n) :
    Always OnlyUb (quantize c x dtIn o (bytes dtOut.bits n) dtOut scale zp .stochastic τ) (span o (bytes dtOut.bits n)) m0
      (fun m => ∀ i j, i < n → j < n → elem dtIn x.data 0 i = elem dtIn x.data 0 j → code dtOut.bits m o i = code dtOut.bits m o j) := by
  obtain ⟨js, e, _, g⟩ := quantize_ub (o := o) (scale := scale) (τ := τ) (zp := zp) (mode := .stochastic) h m0
  refine ⟨js, e, g.safe, g.raceFree, g.progress, g.bounded, fun k d hr hd i j hi hj hij => ?_⟩
  obtain ⟨ft, hft, hc⟩ := (g.post k d hr hd).1.1 i hi
  obtain ⟨ft', hft', hc'⟩ := (g.post k d hr hd).1.1 j hj
  have : ft' = ft := by rw [hft] at hft'; cases ft <;> cases ft' <;> first | rfl | cases hft'
  subst this
  rw [hij] at hc
  rcases hc with hc | ⟨hm, _⟩
  · rcases hc' with hc' | ⟨hm, _⟩
    · rw [hc] at hc'; injection hc'
    · cases hm
  · cases hm

/-- `C19_equal_inputs_equal_codes` applied to a concrete case. -/
example := C19_equal_inputs_equal_codes (c := Ex.c1) (x := Ex.many) (dtIn := .f32) (dtOut := .uint8) (n := 70) (o := 1000) (scale := Ex.tenth)
    (τ := Ex.quarter) (zp := 64) (m0 := Ex.old) (h := by wit)

/-! ## C36 (quantize) -/

/-- C36 (quantize). Any other data: an element that is ± 0 gets the code `sat zero_point`, on every
kernel and in both modes, whenever `1/scale` is finite. -/
theorem C36_quantize_zero (h : QArgs c.threads x dtIn dtOut n) (hz : |zp| ≤ 2 ^ 22)
    (hs : (Flt.div (⟨false, 0x3f800000⟩ : F32) scale).isFin = true) (hτ : mode = .stochastic → τ.isFin = true ∧ 0 ≤ τ.toRat) :
    Always OnlyUb (quantize c x dtIn o (bytes dtOut.bits n) dtOut scale zp mode τ) (span o (bytes dtOut.bits n)) m0
      (fun m => ∀ i, i < n → (elem dtIn x.data 0 i).isZero = true → (code dtOut.bits m o i : ℤ) = sat dtOut.bits zp) := by
  have hz' : Zp32 zp := by have := abs_le.mp hz; norm_num at this; constructor <;> norm_num <;> omega
  obtain ⟨js, e, _, g⟩ := quantize_ub (o := o) (scale := scale) (τ := τ) (zp := zp) (mode := mode) h m0
  refine ⟨js, e, g.safe, g.raceFree, g.progress, g.bounded, fun k d hr hd i hi h0 => ?_⟩
  obtain ⟨ft, rfl, hc⟩ := (g.post k d hr hd).1.1 i hi
  generalize elem ft.dtype x.data 0 i = v at *
  have hv : v.toRat = 0 := isZero_iff.mp h0
  have hvf : v.isFin = true := isFin_of_abs (by rw [hv]; simp)
  have hp : (scaled v scale).toRat = 0 := by
    have : (scaled v scale).toRat = flr f32 (v.toRat * (invScale scale).toRat) := mul_toRat hvf hs
    rw [this, hv, zero_mul, flr_zero]
  have hpf : (scaled v scale).isFin = true := isFin_of_abs (by rw [hp]; simp)
  have hr0 : rha 0 = 0 := by exact_mod_cast rha_int 0
  have hdef : Defined mode τ (scaled v scale) zp := by
    have := abs_le.mp hz
    norm_num at this
    cases mode
    · refine ⟨hpf, ?_, ?_⟩ <;> rw [hp, hr0]
      · norm_num
      · norm_num; omega
    · exact ⟨hpf, by rw [hp]; norm_num, hτ rfl⟩
  rcases elemCode_val h.outQuant hz' hdef (Or.inr hz) hc with g | ⟨_, g, _⟩
  · rw [g, hp]
    cases mode
    · simp [rounded, hr0]
    · have : sround τ.toRat 0 = 0 := by
        unfold sround
        have : rtz 0 = 0 := by exact_mod_cast rtz_int 0
        rw [this]; simp [(hτ rfl).2]
      simp [rounded, this]
  · rw [hp] at g; norm_num [predHalf] at g

/-- `C36_quantize_zero` applied to a concrete case. -/
example := C36_quantize_zero (c := Ex.c1) (x := Ex.many) (dtIn := .f32) (dtOut := .uint8) (n := 70) (o := 1000) (scale := Ex.tenth) (τ := Ex.quarter)
    (zp := 64) (mode := .nearest) (m0 := Ex.old) (h := by wit) (hz := by wit) (hs := by wit) (hτ := by wit)

/-! ## C34 -/

/-- C34, what holds: for 32-bit zero points, every dtype pair, rounding mode and kernel uses the
zero point as given: adding it to the rounded scaled value, then saturating. -/
theorem C34_zero_point_partial (h : QArgs c.threads x dtIn dtOut n) (hz : Zp32 zp)
    (hd : ∀ i, i < n → Defined mode τ (scaled (elem dtIn x.data 0 i) scale) zp)
    (hx : ExactKernel c.isa dtIn dtOut mode ∨ (|zp| ≤ 2 ^ 22 ∧ ∀ i, i < n → |(scaled (elem dtIn x.data 0 i) scale).toRat| ≠ predHalf)) :
    Always NoFault (quantize c x dtIn o (bytes dtOut.bits n) dtOut scale zp mode τ) (span o (bytes dtOut.bits n)) m0
      (fun m => ∀ i, i < n → (code dtOut.bits m o i : ℤ) =
        sat dtOut.bits (rounded mode τ.toRat (scaled (elem dtIn x.data 0 i) scale).toRat + zp)) := by
  refine (quantize_vals h hz hd (hx.imp (fun h => h) (fun h => h.1))).mono (fun _ h => h) (fun m hm i hi => ?_)
  rcases hm.1 i hi with g | ⟨g1, g2, _⟩
  · exact g
  · rcases hx with hx | ⟨_, hx⟩
    · exact absurd hx g1
    · exact absurd g2 (hx i hi)

/-- `C34_zero_point_partial` applied to a concrete case. -/
example := C34_zero_point_partial (c := Ex.c1) (x := Ex.many) (dtIn := .f32) (dtOut := .uint8) (n := 70) (o := 1000) (scale := Ex.tenth)
    (τ := Ex.quarter) (zp := 64) (mode := .nearest) (m0 := Ex.old) (h := by wit) (hz := by wit) (hd := by wit) (hx := by wit)

/-- C12, all kernels and rounding modes: with a defined, non-exceptional scaled value for every element, element `i` read back from
the packed output is the code a call on `x_i` alone stores, whatever the kernels, thread counts and schedules of both calls. -/
theorem C12_packing_lossless_any_kernel {c' : Ctx} {o' : Nat} {m0' : Mem} (h : QArgs c.threads x dtIn dtOut n) (h' : Sizes 1 c'.threads) (hz : |zp| ≤ 2 ^ 22)
    (hd : ∀ i, i < n → Defined mode τ (scaled (elem dtIn x.data 0 i) scale) zp)
    (hx : ∀ i, i < n → |(scaled (elem dtIn x.data 0 i) scale).toRat| ≠ predHalf) :
    Always NoFault (quantize c x dtIn o (bytes dtOut.bits n) dtOut scale zp mode τ) (span o (bytes dtOut.bits n)) m0
      (fun m => ∀ i, i < n →
        Always NoFault (quantize c' ⟨dtIn.stride, fun a => x.data (dtIn.stride * i + a)⟩ dtIn o' 1 dtOut scale zp mode τ) (span o' 1) m0'
          (fun m' => code dtOut.bits m o i = code dtOut.bits m' o' 0)) := by
  have hz32 : Zp32 zp := by have := abs_le.mp hz; unfold Zp32; norm_num at this ⊢; omega
  refine (C34_zero_point_partial h hz32 hd (Or.inr ⟨hz, hx⟩)).mono (fun _ h => h) (fun m hm i hi => ?_)
  have h1 : QArgs c'.threads ⟨dtIn.stride, fun a => x.data (dtIn.stride * i + a)⟩ dtIn dtOut 1 := ⟨h.inFloat, h.outQuant, by simp, h'⟩
  have e : ∀ j, j < 1 → elem dtIn (fun a => x.data (dtIn.stride * i + a)) 0 j = elem dtIn x.data 0 i := fun j hj => by
    obtain rfl : j = 0 := by omega
    exact elem_shift h.inFloat _ _
  have g := C34_zero_point_partial (c := c') (o := o') (m0 := m0') (scale := scale) (τ := τ) (mode := mode) h1 hz32
    (fun j hj => by rw [e j hj]; exact hd i hi) (Or.inr ⟨hz, fun j hj => by rw [e j hj]; exact hx i hi⟩)
  rw [bytes_one h.outQuant] at g
  refine g.mono (fun _ h => h) (fun m' hm' => ?_)
  have a1 := hm i hi
  have a2 := hm' 0 (by norm_num)
  rw [e 0 (by norm_num)] at a2
  rw [← a2] at a1
  exact_mod_cast a1

/-- `C12_packing_lossless_any_kernel` applied to a concrete case. -/
example := C12_packing_lossless_any_kernel (c := Ex.c1) (x := Ex.many) (dtIn := .f32) (dtOut := .uint8) (n := 70) (o := 1000) (scale := Ex.tenth)
    (τ := Ex.quarter) (zp := 64) (mode := .nearest) (m0 := Ex.old) (c' := ⟨.avx2, 4, .none⟩) (o' := 3000) (m0' := Ex.old) (h := by wit) (h' := by wit) (hz := by wit)
    (hd := by wit) (hx := by wit)

end
end Verif.Props
