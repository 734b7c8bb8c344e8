import Verif.Props.Examples
import Verif.Proofs.Weak
import Verif.Props.Quant
import Verif.Props.QuantNeg
import Verif.Props.Dequant

/-!
# C84: the results are visible when a call returns, although stores become visible late
-/

namespace Verif.Props
open Spec

section
variable {c : Ctx} {x : InBuf} {dtIn dtOut : DType} {n o : Nat} {scale τ : F32} {zp : ℤ} {mode : RoundMode} {op : ReduceOp} {m0 m : Mem}
  {E : Fault → Prop} {Q : Mem → Prop} {r : Report} {nt : Nat → Prop}

/-- The call is accepted and, for every schedule of its workers and every delay of their stores, safe, terminating, and such that
the memory the caller sees when the call returns satisfies `Q` (see `AllWeak`; compare `Always`). -/
def AlwaysSees (E : Fault → Prop) (call : Except Fault (List (Prog Unit))) (w : Win) (nt : Nat → Prop) (r : Report) (m0 : Mem) (Q : Mem → Prop) : Prop :=
  ∃ js, call = .ok js ∧ AllWeak E w nt r js m0 Q

/-- The addresses a quantize call stores to with non-temporal instructions. -/
def streamedQ (c : Ctx) (dtIn dtOut : DType) (o n : Nat) (mode : RoundMode) : Nat → Prop :=
  ntCall c o ⟨.quant, n, f0, 0, dtIn, dtOut, mode, .set, f0, c.fuse⟩
/-- ... a dequantize call. -/
def streamedD (c : Ctx) (dtIn dtOut : DType) (o n : Nat) (op : ReduceOp) : Nat → Prop :=
  ntCall c o ⟨.dequant, n, f0, 0, dtIn, dtOut, .nearest, op, f0, c.fuse⟩
/-- ... a fused call. -/
def streamedF (c : Ctx) (dtIn dtOut : DType) (o n : Nat) (mode : RoundMode) (op : ReduceOp) : Nat → Prop :=
  ntCall c o ⟨.quantDequant, n, f0, 0, dtIn, dtOut, mode, op, f0, c.fuse⟩

/-- The quantize kernels with non-temporal stores. -/
def Streams (isa : Isa) (dtIn dtOut : DType) (mode : RoundMode) : Prop :=
  mode = .nearest ∧ dtOut = .uint8 ∧ ((dtIn = .f32 ∧ (isa = .sse42 ∨ isa = .avx2 ∨ isa = .avx512f ∨ isa = .avx512bf16)) ∨ (dtIn = .bf16 ∧ isa = .avx2))

theorem not_streamed (h : ¬ Streams c.isa dtIn dtOut mode) (a : Nat) : ¬ streamedQ c dtIn dtOut o n mode a := by
  rintro ⟨_, ti, b, k, ft, _, _, hft, hk⟩
  simp only at hft hk
  apply h
  unfold Streams
  revert hk
  unfold ntKernel
  cases hm : mode <;> cases dtOut <;> cases ft <;> cases hi : c.isa <;> simp_all [FT.dtype]

theorem excl_q (h : QArgs c.threads x dtIn dtOut n) {js : List (Prog Unit)} (e : quantize c x dtIn o (bytes dtOut.bits n) dtOut scale zp mode τ = .ok js) :
    Exclusive (span o (bytes dtOut.bits n)) js m0 := fun _ _ _ _ _ ht h1 h2 => C02_quantize_no_shared_byte h e ht h1 h2

/-- C84 (quantize), what holds: whatever is true of the memory after every schedule when stores are visible at once is true of the
memory the caller sees when the call returns, however late stores become visible, provided that the thread pool reports finished
tasks with a fence or a locked instruction.  No assumption on which stores are non-temporal. -/
theorem C84_quantize_fenced_partial (h : QArgs c.threads x dtIn dtOut n)
    (hQ : Always E (quantize c x dtIn o (bytes dtOut.bits n) dtOut scale zp mode τ) (span o (bytes dtOut.bits n)) m0 Q) :
    AlwaysSees E (quantize c x dtIn o (bytes dtOut.bits n) dtOut scale zp mode τ) (span o (bytes dtOut.bits n)) nt .fence m0 Q := by
  obtain ⟨js, e, g⟩ := hQ
  exact ⟨js, e, weak_main (excl_q h e) g (Or.inl rfl)⟩

/-- `C84_quantize_fenced_partial` applied to a concrete case. -/
example := C84_quantize_fenced_partial (c := Ex.c1) (x := Ex.many) (dtIn := .f32) (dtOut := .uint8) (n := 70) (o := 1000) (scale := Ex.tenth)
    (τ := Ex.quarter) (zp := 64) (mode := .nearest) (m0 := Ex.old) (E := _) (Q := _) (nt := (fun a => a % 2 = 0)) (h := by wit)
    (hQ := C07_vector_nearest (by wit) (by wit) (by wit))

/-- C84 (quantize), what holds: ... or with an ordinary store, if the kernel has no non-temporal stores. -/
theorem C84_quantize_unstreamed_partial (h : QArgs c.threads x dtIn dtOut n) (hns : ¬ Streams c.isa dtIn dtOut mode)
    (hQ : Always E (quantize c x dtIn o (bytes dtOut.bits n) dtOut scale zp mode τ) (span o (bytes dtOut.bits n)) m0 Q) :
    AlwaysSees E (quantize c x dtIn o (bytes dtOut.bits n) dtOut scale zp mode τ) (span o (bytes dtOut.bits n)) (streamedQ c dtIn dtOut o n mode) r m0 Q := by
  obtain ⟨js, e, g⟩ := hQ
  exact ⟨js, e, weak_main (excl_q h e) g (Or.inr (fun a _ => not_streamed hns a))⟩

/-- `C84_quantize_unstreamed_partial` applied to a concrete case. -/
example := C84_quantize_unstreamed_partial (c := Ex.c1) (x := Ex.many) (dtIn := .f32) (dtOut := .uint4) (n := 70) (o := 1000) (scale := Ex.tenth)
    (τ := Ex.quarter) (zp := 7) (mode := .nearest) (m0 := Ex.old) (E := _) (Q := _) (r := .flag) (h := by wit) (hns := by unfold Streams; decide)
    (hQ := C07_vector_nearest (by wit) (by wit) (by wit))

/-- C84 (quantize), what holds: ... and with an ordinary store and a kernel with non-temporal stores, the caller sees the result in
all bytes that are not stored to by a non-temporal instruction. -/
theorem C84_quantize_bytes_partial (h : QArgs c.threads x dtIn dtOut n)
    (hQ : Always E (quantize c x dtIn o (bytes dtOut.bits n) dtOut scale zp mode τ) (span o (bytes dtOut.bits n)) m0 Q) :
    AlwaysSees E (quantize c x dtIn o (bytes dtOut.bits n) dtOut scale zp mode τ) (span o (bytes dtOut.bits n)) (streamedQ c dtIn dtOut o n mode) r m0
      (fun m => ∃ m', Q m' ∧ ∀ a, ¬ streamedQ c dtIn dtOut o n mode a → m a = m' a) := by
  obtain ⟨js, e, g⟩ := hQ
  have := weak_bytes (nt := streamedQ c dtIn dtOut o n mode) (r := r) (excl_q h e) g
  refine ⟨js, e, this.safe, this.progress, this.bounded, fun k d hk hj => ?_⟩
  obtain ⟨m', hm, he⟩ := this.post k d hk hj
  exact ⟨m', hm, fun a ha => he a (Or.inr (Or.inr ha))⟩

/-- `C84_quantize_bytes_partial` applied to a concrete case. -/
example := C84_quantize_bytes_partial (c := Ex.c1) (x := Ex.many) (dtIn := .f32) (dtOut := .uint8) (n := 70) (o := 1000) (scale := Ex.tenth)
    (τ := Ex.quarter) (zp := 64) (mode := .nearest) (m0 := Ex.old) (E := _) (Q := _) (r := .flag) (h := by wit)
    (hQ := C07_vector_nearest (by wit) (by wit) (by wit))

/-- Only whole vectors of at least 16 bytes at addresses that are multiples of 16 are stored to by non-temporal instructions. -/
theorem streamed_whole {a : Nat} (hn : n * c.threads < 2 ^ 63) (h59 : n < 2 ^ 59) (hs : streamedQ c dtIn dtOut o n mode a) :
    o ≤ a / 16 * 16 ∧ a / 16 * 16 + 16 ≤ o + n := by
  obtain ⟨_, ti, b, k, ft, hti, hp, hft, hk⟩ := hs
  simp only at hft hk
  rw [partitionRow_eq hti hn] at hp
  have hb : b + k ≤ n := by
    generalize packElems _ = pe at hp
    have h1 := cut_le (pe := pe) (n := n) (tc := c.threads) (ti := ti + 1) (by omega)
    have h2 := cut_mono (pe := pe) (n := n) (tc := c.threads) (ti := ti) hti
    simp only at hp
    split at hp
    · cases hp
    · cases hp; omega
  have hl : ∀ al wd o, (al = 16 ∨ al = 32) → (wd = 16 ∨ wd = 32 ∨ wd = 64) → ntLoop al wd o k a → o ≤ a / 16 * 16 ∧ a / 16 * 16 + 16 ≤ o + k := by
    intro al wd o hal hwd hk
    obtain ⟨h1, h2⟩ := hk
    rcases hal with rfl | rfl <;> rcases hwd with rfl | rfl | rfl <;> omega
  have e8 : byteOff 8 b = b := by unfold byteOff; omega
  revert hk
  unfold ntKernel
  intro hk
  split at hk
  all_goals first
    | exact hk.elim
    | (have := hl _ _ _ (by omega) (by omega) hk
       simp only [DType.bits, e8] at this
       omega)

/-- C84 (quantize), what holds: ... in particular in every byte of a 16-byte line of memory that is not wholly inside the output. -/
theorem C84_quantize_edges_partial (h : QArgs c.threads x dtIn dtOut n)
    (hQ : Always E (quantize c x dtIn o (bytes dtOut.bits n) dtOut scale zp mode τ) (span o (bytes dtOut.bits n)) m0 Q) :
    AlwaysSees E (quantize c x dtIn o (bytes dtOut.bits n) dtOut scale zp mode τ) (span o (bytes dtOut.bits n)) (streamedQ c dtIn dtOut o n mode) r m0
      (fun m => ∃ m', Q m' ∧ ∀ a, a / 16 * 16 < o ∨ o + n < a / 16 * 16 + 16 → m a = m' a) := by
  obtain ⟨js, e, g⟩ := C84_quantize_bytes_partial (r := r) h hQ
  refine ⟨js, e, g.safe, g.progress, g.bounded, fun k d hk hj => ?_⟩
  obtain ⟨m', hm, he⟩ := g.post k d hk hj
  refine ⟨m', hm, fun a ha => he a (fun hs => ?_)⟩
  have := streamed_whole h.sizes.split h.sizes.addr hs
  omega

/-- `C84_quantize_edges_partial` applied to a concrete case. -/
example := C84_quantize_edges_partial (c := Ex.c1) (x := Ex.many) (dtIn := .f32) (dtOut := .uint8) (n := 70) (o := 1000) (scale := Ex.tenth)
    (τ := Ex.quarter) (zp := 64) (mode := .nearest) (m0 := Ex.old) (E := _) (Q := _) (r := .flag) (h := by wit)
    (hQ := C07_vector_nearest (by wit) (by wit) (by wit))

/-- C84 (quantize), what holds: ... and for tensors of fewer than 16 elements in the whole output, on every kernel set, with either kind
of report. -/
theorem C84_quantize_small_partial (h : QArgs c.threads x dtIn dtOut n) (hn : n < 16)
    (hQ : Always E (quantize c x dtIn o (bytes dtOut.bits n) dtOut scale zp mode τ) (span o (bytes dtOut.bits n)) m0 Q) :
    AlwaysSees E (quantize c x dtIn o (bytes dtOut.bits n) dtOut scale zp mode τ) (span o (bytes dtOut.bits n)) (streamedQ c dtIn dtOut o n mode) r m0 Q := by
  obtain ⟨js, e, g⟩ := hQ
  refine ⟨js, e, weak_main (excl_q h e) g (Or.inr (fun a _ hs => ?_))⟩
  have := streamed_whole h.sizes.split h.sizes.addr hs
  omega

/-- C84 (dequantize, SET and ADD): holds with either kind of report. -/
theorem C84_dequantize (h : DArgs c.threads x dtIn dtOut n) (hr : Readable dtIn dtOut n x.size)
    (hQ : Always E (dequantize c x (bytes dtIn.bits n) dtIn o (dtOut.stride * n) dtOut scale zp op) (span o (dtOut.stride * n)) m0 Q) :
    AlwaysSees E (dequantize c x (bytes dtIn.bits n) dtIn o (dtOut.stride * n) dtOut scale zp op) (span o (dtOut.stride * n)) (streamedD c dtIn dtOut o n op) r m0 Q := by
  obtain ⟨js, e, g⟩ := hQ
  refine ⟨js, e, weak_main (fun _ _ _ _ _ ht h1 h2 => C02_dequantize_no_shared_byte h hr e ht h1 h2) g (Or.inr (fun a _ hs => ?_))⟩
  have := hs.1
  cases this

/-- `C84_dequantize` applied to a concrete case. -/
example := C84_dequantize (c := Ex.c1) (x := Ex.codes) (dtIn := .uint4) (dtOut := .f32) (n := 139) (o := 1000) (scale := Ex.tenth) (zp := 7)
    (op := .set) (m0 := Ex.old) (E := _) (Q := _) (r := .flag) (h := by wit) (hr := by wit)
    (hQ := C09_dequantize_f32_formula (by wit) (by wit) (by wit))

/-- C84 (fused, SET and ADD): holds with either kind of report. -/
theorem C84_fused (h : QArgs c.threads x dtIn dtOut n)
    (hQ : Always E (fused c x dtIn o (dtIn.stride * n) dtOut scale zp mode op τ) (span o (dtIn.stride * n)) m0 Q) :
    AlwaysSees E (fused c x dtIn o (dtIn.stride * n) dtOut scale zp mode op τ) (span o (dtIn.stride * n)) (streamedF c dtIn dtOut o n mode op) r m0 Q := by
  obtain ⟨js, e, g⟩ := hQ
  refine ⟨js, e, weak_main (fun _ _ _ _ _ ht h1 h2 => C02_fused_no_shared_byte h e ht h1 h2) g (Or.inr (fun a _ hs => ?_))⟩
  have := hs.1
  cases this

/-- C84 is false of the quantize kernels with non-temporal stores if finished tasks are reported by an ordinary store: for every
complete execution (leaving the memory `m` if stores were visible at once) there is one after which the call returns while the
caller sees, at every address stored to by a non-temporal instruction, what was there before the call. -/
theorem C84_false_streamed (h : QArgs c.threads x dtIn dtOut n)
    (hm : Outcome (quantize c x dtIn o (bytes dtOut.bits n) dtOut scale zp mode τ) (span o (bytes dtOut.bits n)) m0 m) :
    ∃ js k d, quantize c x dtIn o (bytes dtOut.bits n) dtOut scale zp mode τ = .ok js ∧
      WReach (span o (bytes dtOut.bits n)) (streamedQ c dtIn dtOut o n mode) (.start js m0) k d ∧ d.Joined .flag (streamedQ c dtIn dtOut o n mode) ∧
      (∀ a, streamedQ c dtIn dtOut o n mode a → d.mem a = m0 a) ∧ ∀ a, ¬ streamedQ c dtIn dtOut o n mode a → d.mem a = m a := by
  obtain ⟨js, k, d, e, hr, hd, rfl⟩ := hm
  obtain ⟨k', d', h1, h2, h3, h4⟩ := stale (nt := streamedQ c dtIn dtOut o n mode) (excl_q h e) hr hd
  exact ⟨js, k', d', e, h1, h2, h3, h4⟩

/-- With one thread, an output address that is a multiple of 64 and a multiple of 64 elements, all stores of these kernels are
non-temporal. -/
theorem all_streamed (hs : Streams c.isa dtIn dtOut mode) (h1 : c.threads = 1) (ho : o % 64 = 0) (hn : n % 64 = 0) (hlt : n < 2 ^ 59) {a : Nat} (ha : (span o n).has a = true) :
    streamedQ c dtIn dtOut o n mode a := by
  obtain ⟨rfl, rfl, hs⟩ := hs
  obtain ⟨h2, h3⟩ : o ≤ a ∧ a < o + n := by
    simp only [span, Win.has, Bool.and_eq_true] at ha
    exact ⟨of_decide_eq_true ha.1, of_decide_eq_true ha.2⟩
  have h0 : 0 < n := by omega
  have hp : ∀ dt : DType, partitionRow ⟨.quant, n, f0, 0, dt, .uint8, .nearest, .set, f0, c.fuse⟩ 0 1 = .ok (some (0, n)) := by
    intro dt
    rw [partitionRow_eq (by omega) (by show n * 1 < 2 ^ 63; omega)]
    rw [cut_zero (by omega), cut_last, if_neg (by show ¬ 0 ≥ n; omega)]; rfl
  have hl : ∀ al wd, (al = 16 ∨ al = 32) → (wd = 16 ∨ wd = 32 ∨ wd = 64) → ntLoop al wd (o + byteOff 8 0) n a := by
    intro al wd hal hwd
    have e : byteOff 8 0 = 0 := rfl
    unfold ntLoop
    rw [e]
    have e1 : (al - (o + 0) % al) % al = 0 := by
      rcases hal with rfl | rfl <;> omega
    have e2 : n / wd * wd = n := by
      rcases hwd with rfl | rfl | rfl <;> omega
    simp only [e1, Nat.min_zero, Nat.sub_zero, e2]
    omega
  rcases hs with ⟨rfl, hi⟩ | ⟨rfl, hi⟩
  · refine ⟨rfl, 0, 0, n, .f32, by omega, by rw [h1]; exact hp _, rfl, ?_⟩
    rcases hi with hi | hi | hi | hi <;> rw [hi]
    exacts [hl 16 16 (by omega) (by omega), hl 32 32 (by omega) (by omega), hl 16 64 (by omega) (by omega), hl 16 64 (by omega) (by omega)]
  · refine ⟨rfl, 0, 0, n, .bf16, by omega, by rw [h1]; exact hp _, rfl, ?_⟩
    rw [hi]; exact hl 32 32 (by omega) (by omega)

/-- C84 is false, in the worst case completely: for these kernels, one thread, a 64-byte aligned output and a multiple of 64 elements,
the call can return with the caller still seeing the whole old output buffer. -/
theorem C84_false_nothing_visible (h : QArgs c.threads x dtIn dtOut n) (hs : Streams c.isa dtIn dtOut mode) (h1 : c.threads = 1) (ho : o % 64 = 0) (hn : n % 64 = 0)
    (hm : Outcome (quantize c x dtIn o (bytes dtOut.bits n) dtOut scale zp mode τ) (span o (bytes dtOut.bits n)) m0 m) :
    ∃ js k d, quantize c x dtIn o (bytes dtOut.bits n) dtOut scale zp mode τ = .ok js ∧
      WReach (span o (bytes dtOut.bits n)) (streamedQ c dtIn dtOut o n mode) (.start js m0) k d ∧ d.Joined .flag (streamedQ c dtIn dtOut o n mode) ∧
      ∀ a, (span o n).has a = true → d.mem a = m0 a := by
  obtain ⟨js, k, d, e, g1, g2, g3, _⟩ := C84_false_streamed h hm
  exact ⟨js, k, d, e, g1, g2, fun a ha => g3 a (all_streamed hs h1 ho hn h.sizes.addr ha)⟩

end

/-- A call that never faults has a complete execution. -/
theorem always_outcome {call : Except Fault (List (Prog Unit))} {w : Win} {m0 : Mem} {Q : Mem → Prop} (h : Always NoFault call w m0 Q) : ∃ m, Outcome call w m0 m := by
  obtain ⟨js, e, g⟩ := h
  obtain ⟨N, hN⟩ := g.bounded
  have key : ∀ k n d, N - n ≤ k → Reach w ⟨js, m0⟩ n d → ∃ n' d', Reach w ⟨js, m0⟩ n' d' ∧ d'.Done := by
    intro k
    induction k with
    | zero =>
      intro n d hk hr
      by_cases hs : d.Stopped
      · refine ⟨n, d, hr, fun p hp => ?_⟩
        rcases hs p hp with h | ⟨f, rfl⟩
        · exact h
        · exact absurd ⟨_, hp, Or.inl ⟨f, rfl, id⟩⟩ (g.safe n d hr)
      · obtain ⟨d', s⟩ := g.progress n d hr hs
        have := hN _ _ (hr.tail s); omega
    | succ k ih =>
      intro n d hk hr
      by_cases hs : d.Stopped
      · refine ⟨n, d, hr, fun p hp => ?_⟩
        rcases hs p hp with h | ⟨f, rfl⟩
        · exact h
        · exact absurd ⟨_, hp, Or.inl ⟨f, rfl, id⟩⟩ (g.safe n d hr)
      · obtain ⟨d', s⟩ := g.progress n d hr hs
        exact ih (n + 1) d' (by omega) (hr.tail s)
  obtain ⟨n, d, hr, hd⟩ := key N 0 _ (by omega) .refl
  exact ⟨d.mem, js, n, d, e, hr, hd, rfl⟩

/-! ## Concrete calls -/

/-- 64 floats 5.0. -/
def fives : InBuf := ⟨256, fun k => if k % 4 = 2 then 0xa0 else if k % 4 = 3 then 0x40 else 0⟩
def five : F32 := Flt.ofBits f32 0x40a00000

theorem fives_elem (i : Nat) : elem .f32 fives.data 0 i = five := by
  show f32At fives.data (0 + 4 * i) = five
  unfold f32At fives five
  simp only
  rw [if_neg (by omega), if_neg (by omega), if_neg (by omega), if_neg (by omega), if_pos (by omega), if_neg (by omega), if_pos (by omega)]

theorem fives_args (isa : Isa) : QArgs (Ctx.mk isa 1 .none).threads fives .f32 .uint8 64 := ⟨rfl, rfl, rfl, sz 64 1 (by norm_num) (by norm_num)⟩

/-- All codes are 5, on every kernel set, at every output address. -/
theorem fives_codes (isa : Isa) (o : Nat) (m0 : Mem) :
    Always NoFault (quantize ⟨isa, 1, .none⟩ fives .f32 o (bytes 8 64) .uint8 f1 0 .nearest f0) (span o (bytes 8 64)) m0 (fun m => ∀ i, i < 64 → code 8 m o i = 5) := by
  have e : ∀ i, scaled (elem .f32 fives.data 0 i) f1 = five := fun i => by rw [fives_elem]; decide +kernel
  have et : five.toRat = 5 := by decide +kernel
  refine (C07_vector_nearest (c := ⟨isa, 1, .none⟩) (dtOut := .uint8) (o := o) (m0 := m0) (τ := f0) (scale := f1) (zp := 0) (fives_args isa) (by norm_num) (fun i _ => by rw [e]; decide +kernel)).mono (fun _ h => h) (fun m hm i hi => ?_)
  rcases hm i hi with g | ⟨g, _⟩
  · rw [e, et] at g
    have : sat DType.uint8.bits (rha 5 + 0) = 5 := by decide +kernel
    rw [this] at g
    exact_mod_cast g
  · rw [e, et] at g
    exact absurd g (by unfold predHalf; norm_num)

/-- Seen by the caller with a fence: the codes. -/
example (isa : Isa) (o : Nat) (m0 : Mem) (nt : Nat → Prop) :
    AlwaysSees NoFault (quantize ⟨isa, 1, .none⟩ fives .f32 o (bytes 8 64) .uint8 f1 0 .nearest f0) (span o (bytes 8 64)) nt .fence m0 (fun m => ∀ i, i < 64 → code 8 m o i = 5) :=
  C84_quantize_fenced_partial (c := ⟨isa, 1, .none⟩) (dtOut := .uint8) (fives_args isa) (fives_codes isa o m0)

/-- With an ordinary report and the output at address 8: the caller sees code 5 for the first 8 elements (up to the first multiple
of 16) on every kernel set. -/
example (isa : Isa) (m0 : Mem) :
    AlwaysSees NoFault (quantize ⟨isa, 1, .none⟩ fives .f32 8 (bytes 8 64) .uint8 f1 0 .nearest f0) (span 8 (bytes 8 64)) (streamedQ ⟨isa, 1, .none⟩ .f32 .uint8 8 64 .nearest) .flag m0
      (fun m => ∀ i, i < 8 → code 8 m 8 i = 5) := by
  obtain ⟨js, e, g⟩ := C84_quantize_edges_partial (c := ⟨isa, 1, .none⟩) (dtOut := .uint8) (r := .flag) (fives_args isa) (fives_codes isa 8 m0)
  refine ⟨js, e, g.safe, g.progress, g.bounded, fun k d hk hj i hi => ?_⟩
  obtain ⟨m', hm, he⟩ := g.post k d hk hj
  have := hm i (by omega)
  unfold code at this ⊢
  rw [he _ (by omega)]
  exact this

/-- Without: SSE4.2, output at address 0 of a zeroed memory: the call can return and the caller sees code 0 for all 64 values 5.0. -/
theorem C84_false_example : ∃ js k d, quantize ⟨.sse42, 1, .none⟩ fives .f32 0 (bytes 8 64) .uint8 f1 0 .nearest f0 = .ok js ∧
    WReach (span 0 (bytes 8 64)) (streamedQ ⟨.sse42, 1, .none⟩ .f32 .uint8 0 64 .nearest) (.start js (fun _ => 0)) k d ∧
    d.Joined .flag (streamedQ ⟨.sse42, 1, .none⟩ .f32 .uint8 0 64 .nearest) ∧ ∀ i, i < 64 → code 8 d.mem 0 i = 0 := by
  obtain ⟨m, hm⟩ := always_outcome (fives_codes .sse42 0 (fun _ => 0))
  obtain ⟨js, k, d, e, h1, h2, h3⟩ := C84_false_nothing_visible (c := ⟨.sse42, 1, .none⟩) (dtOut := .uint8) (fives_args .sse42) ⟨rfl, rfl, Or.inl ⟨rfl, Or.inl rfl⟩⟩ rfl (by norm_num) (by norm_num) hm
  refine ⟨js, k, d, e, h1, h2, fun i hi => ?_⟩
  unfold code
  rw [h3 _ (by simp [span, Win.has]; omega)]
  simp

end Verif.Props
