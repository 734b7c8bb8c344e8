import Verif.Props.Reduce
import Verif.Props.DequantSame

/-!
# Reductions along a ring: C100

The partial sum travels from peer to peer.  At every hop the sender quantizes the partial sum it holds, and the
receiver adds the dequantized codes to its own tensor; the result is the next partial sum.  At the end the last peer
quantizes the sum once and every peer dequantizes these codes.
-/

namespace Verif.Props
open Spec

variable {n out : Nat} {m0 : Mem}

/-- One hop: type, parameters, rounding mode and threshold of the transfer; where and with which context the sender
quantizes its partial sum; the receiver's context, the readable size of its receive buffer, and the receiver's memory, which
holds its own tensor at `out`. -/
structure Hop where
  dt : DType
  s : F32
  z : ℤ
  mode : RoundMode
  τ : F32
  c : Ctx
  o : Nat
  mem : Mem
  c' : Ctx
  sz : Nat
  own : Mem

/-- Element `i` of the receiver's own tensor. -/
def Hop.val (out : Nat) (h : Hop) (i : Nat) : ℚ := (f32At h.own (out + 4 * i)).toRat

/-- Half a step (nearest) or a step (stochastic), up to `2^-12` of a step. -/
def Hop.err (h : Hop) : ℚ := h.s.toRat * (tol h.mode + 1 / 2 ^ 12)

/-- After every schedule of each hop's quantize call (on the partial sum in the sender's memory) and of the receiver's
dequantize(ADD) call into its own tensor, one hop after the other: `Q` holds of the last receiver's memory. -/
def Ring (n out : Nat) : List Hop → Mem → (Mem → Prop) → Prop
  | [], m, Q => Q m
  | h :: l, m, Q =>
    Always NoFault (quantize h.c ⟨4 * n, fun a => m (out + a)⟩ .f32 h.o (bytes h.dt.bits n) h.dt h.s h.z h.mode h.τ) (span h.o (bytes h.dt.bits n)) h.mem (fun mq =>
      Always NoFault (dequantize h.c' ⟨h.sz, fun a => mq (h.o + a)⟩ (bytes h.dt.bits n) h.dt out (4 * n) .f32 h.s h.z .add) (span out (4 * n)) h.own
        (fun m' => Ring n out l m' Q))

/-- A legal hop whose representable range `[(0 - z) s, (2^bits - 1 - z) s]` contains `[-R, R]`, and whose receiver's tensor is
finite.  For uint2 the element count must be a multiple of four (C10) and one byte behind the receive buffer readable (C11). -/
structure Hop.Ok (h : Hop) (n out : Nat) (R : ℚ) : Prop where
  quant : h.dt.isQuant = true
  send : Sizes n h.c.threads
  recv : Sizes n h.c'.threads
  lo : 1 / 2 ^ 126 ≤ h.s.toRat
  hi : h.s.toRat ≤ 2 ^ 119
  thr : Threshold h.mode h.τ
  zp : 0 ≤ h.z ∧ h.z ≤ 2 ^ h.dt.bits - 1
  down : R ≤ h.z * h.s.toRat
  up : R ≤ (2 ^ h.dt.bits - 1 - h.z) * h.s.toRat
  size : bytes h.dt.bits n ≤ h.sz
  rd : Readable h.dt .f32 n h.sz
  tail : h.dt = .uint2 → n % 4 = 0
  fin : ∀ i, i < n → (f32At h.own (out + 4 * i)).isFin = true

theorem Ring.mono {l : List Hop} : ∀ {m : Mem} {Q Q' : Mem → Prop}, (∀ m, Q m → Q' m) → Ring n out l m Q → Ring n out l m Q' := by
  induction l with
  | nil => intro m Q Q' hQ h; exact hQ _ h
  | cons p l ih =>
    intro m Q Q' hQ h
    exact Always.mono h (fun _ h => h) (fun mq hq => Always.mono hq (fun _ h => h) (fun m' hm' => ih hQ hm'))

/-- The sender of a hop as a peer of a reduction. -/
def Hop.peer (n out : Nat) (h : Hop) (m : Mem) : Peer :=
  ⟨.f32, ⟨4 * n, fun a => m (out + a)⟩, h.dt, h.s, h.z, h.mode, h.τ, h.c, h.o, h.mem, h.c', h.sz⟩

theorem Hop.peer_elem (h : Hop) (m : Mem) (i : Nat) : elem .f32 (Hop.peer n out h m).x.data 0 i = f32At m (out + 4 * i) := by
  show f32At (fun a => m (out + a)) (0 + 4 * i) = _
  rw [f32At_shift, Nat.zero_add]

theorem Hop.Ok.peer {h : Hop} {R : ℚ} (hk : h.Ok n out R) {m : Mem}
    (hm : ∀ i, i < n → (f32At m (out + 4 * i)).isFin = true ∧ |(f32At m (out + 4 * i)).toRat| ≤ R) : (Hop.peer n out h m).Ok n := by
  refine ⟨⟨rfl, hk.quant, rfl, hk.send⟩, hk.recv, fun i hi => ?_, hk.lo, hk.hi, hk.thr, Or.inl ⟨hk.zp, fun i hi => ?_⟩, hk.size, hk.rd, hk.tail⟩
  · have := (hm i hi).1
    rw [← Hop.peer_elem (n := n) h m i] at this
    exact this
  · have g := abs_le.mp (hm i hi).2
    rw [← Hop.peer_elem (n := n) h m i] at g
    have d := hk.down
    have u := hk.up
    change ((0 - h.z : ℤ) : ℚ) * h.s.toRat ≤ (elem .f32 (Hop.peer n out h m).x.data 0 i).toRat ∧
      (elem .f32 (Hop.peer n out h m).x.data 0 i).toRat ≤ ((2 ^ h.dt.bits - 1 - h.z : ℤ) : ℚ) * h.s.toRat
    push_cast
    constructor <;> linarith [g.1, g.2]

/-- Induction over the hops: `T` is the true partial sum, `D` the error so far. -/
theorem ring_core (hops : List Hop) {B R : ℚ} : ∀ {m0 : Mem} {T : Nat → ℚ} {D : ℚ}, (∀ h ∈ hops, h.Ok n out R) → 0 ≤ D →
    (∀ i, i < n → (f32At m0 (out + 4 * i)).isFin = true ∧ |(f32At m0 (out + 4 * i)).toRat - T i| ≤ D) →
    0 ≤ B → (∀ i, i < n → |T i| + (hops.map (fun h => |h.val out i|)).sum ≤ B) → R ≤ 2 ^ 127 →
    B + (1 + 1 / 2 ^ 24) ^ hops.length * (D + ((hops.map Hop.err).sum + hops.length * (B / 2 ^ 24 + 1 / 2 ^ 150))) ≤ R →
    Ring n out hops m0 (fun m => ∀ i, i < n → (f32At m (out + 4 * i)).isFin = true ∧
      |(f32At m (out + 4 * i)).toRat - (T i + (hops.map (fun h => h.val out i)).sum)| ≤
        (1 + 1 / 2 ^ 24) ^ hops.length * (D + ((hops.map Hop.err).sum + hops.length * (B / 2 ^ 24 + 1 / 2 ^ 150)))) := by
  have hη : ∀ {B : ℚ}, 0 ≤ B → 0 ≤ B / 2 ^ 24 + 1 / 2 ^ 150 := fun h => by positivity
  induction hops with
  | nil =>
    intro m0 T D _ _ hA _ _ _ _ i hi
    simpa using hA i hi
  | cons p l ih =>
    intro m0 T D h hD hA hB0 hB hR hM
    have hp := h p List.mem_cons_self
    have hl : ∀ q ∈ l, q.Ok n out R := fun q hq => h q (List.mem_cons_of_mem _ hq)
    have herr : ∀ q : Hop, q.Ok n out R → 0 ≤ q.err := fun q hq => by
      have h1 : 0 < q.s.toRat := lt_of_lt_of_le (by positivity) hq.lo
      have h2 := half_le_tol (mode := q.mode)
      unfold Hop.err
      exact mul_nonneg h1.le (by have : (0:ℚ) ≤ 1 / 2 ^ 12 := by positivity
                                 linarith)
    have hE := herr p hp
    have hS : 0 ≤ (l.map Hop.err).sum := List.sum_nonneg (fun v hv => by
      obtain ⟨q, hq, rfl⟩ := List.mem_map.mp hv
      exact herr q (hl q hq))
    have hη := hη hB0
    have hηd : B / 2 ^ 24 + 1 / 2 ^ 150 = B * (1 / 2 ^ 24) + 1 / 2 ^ 150 := by ring
    have hu : (0:ℚ) ≤ 1 / 2 ^ 24 := by positivity
    simp only [List.map_cons, List.sum_cons, List.length_cons, Nat.cast_add, Nat.cast_one] at hM hB ⊢
    set E := p.err with hEd
    set S := (l.map Hop.err).sum
    set N : ℚ := (l.length : ℚ) with hN
    have hN0 : 0 ≤ N := by rw [hN]; positivity
    set η := B / 2 ^ 24 + 1 / 2 ^ 150 with hηdef
    set D1 := (1 + 1 / 2 ^ 24) * (D + E) + η with hD1
    have hw : (0:ℚ) ≤ 1 + 1 / 2 ^ 24 := by linarith
    have hD10 : 0 ≤ D1 := add_nonneg (mul_nonneg hw (by linarith)) hη
    have hP : 1 ≤ (1 + 1 / 2 ^ 24 : ℚ) ^ l.length := one_le_pow₀ (by linarith)
    have hNη : 0 ≤ N * η := mul_nonneg hN0 hη
    have hstep : D1 + (S + N * η) ≤ (1 + 1 / 2 ^ 24) * (D + (E + S + (N + 1) * η)) := by
      have : (1 + 1 / 2 ^ 24) * (D + (E + S + (N + 1) * η)) - (D1 + (S + N * η)) = 1 / 2 ^ 24 * (S + N * η + η) := by
        rw [hD1]; ring
      have h2 : 0 ≤ (1:ℚ) / 2 ^ 24 * (S + N * η + η) := mul_nonneg hu (by linarith)
      linarith
    have hmono : (1 + 1 / 2 ^ 24 : ℚ) ^ l.length * (D1 + (S + N * η)) ≤ (1 + 1 / 2 ^ 24) ^ (l.length + 1) * (D + (E + S + (N + 1) * η)) := by
      rw [pow_succ (1 + 1 / 2 ^ 24 : ℚ) l.length, mul_assoc]
      exact mul_le_mul_of_nonneg_left hstep (by linarith)
    have hDE : D + E ≤ (1 + 1 / 2 ^ 24) ^ (l.length + 1) * (D + (E + S + (N + 1) * η)) := by
      have h1 : D + E ≤ D1 + (S + N * η) := by
        have : D1 = D + E + 1 / 2 ^ 24 * (D + E) + η := by rw [hD1]; ring
        have h2 : 0 ≤ (1:ℚ) / 2 ^ 24 * (D + E) := mul_nonneg hu (by linarith)
        linarith
      refine (h1.trans ?_).trans hmono
      exact le_mul_of_one_le_left (by linarith) hP
    have hsum : ∀ i, 0 ≤ (l.map (fun h => |h.val out i|)).sum := fun i => List.sum_nonneg (fun v hv => by
        obtain ⟨q, _, rfl⟩ := List.mem_map.mp hv
        exact abs_nonneg _)
    have hacc : ∀ i, i < n → |(f32At m0 (out + 4 * i)).toRat| ≤ B + D := fun i hi => by
      have h1 := hB i hi
      have h2 := hsum i
      have h3 : (f32At m0 (out + 4 * i)).toRat = ((f32At m0 (out + 4 * i)).toRat - T i) + T i := by ring
      rw [h3]
      refine (abs_add_le _ _).trans ?_
      linarith [(hA i hi).2, abs_nonneg (p.val out i)]
    have hAB : ∀ i, i < n → |p.val out i + (f32At m0 (out + 4 * i)).toRat| ≤ B + D := fun i hi => by
      have h1 := hB i hi
      have h2 := hsum i
      have h3 : p.val out i + (f32At m0 (out + 4 * i)).toRat = ((f32At m0 (out + 4 * i)).toRat - T i) + (T i + p.val out i) := by ring
      rw [h3]
      refine (abs_add_le _ _).trans ?_
      have h4 := abs_add_le (T i) (p.val out i)
      linarith [(hA i hi).2]
    have hval : ∀ i, (Hop.peer n out p m0).val i = (f32At m0 (out + 4 * i)).toRat := fun i => congrArg Flt.toRat (Hop.peer_elem p m0 i)
    have hok := hp.peer (m := m0) (fun i hi => ⟨(hA i hi).1, (hacc i hi).trans (by linarith)⟩)
    refine peer_step (m0 := p.own) hok hp.fin (fun i hi => ?_) (fun m hm => ?_)
    · rw [hval]
      have := hAB i hi
      show |p.val out i + _| + E ≤ _
      linarith
    · refine Ring.mono ?_ (ih (m0 := m) (T := fun i => T i + p.val out i) (D := D1) hl hD10 (fun i hi => ⟨(hm i hi).1, ?_⟩) hB0 (fun i hi => ?_) hR (by linarith))
      · intro m' hm' i hi
        refine ⟨(hm' i hi).1, ?_⟩
        have := (hm' i hi).2
        rw [add_assoc] at this
        exact this.trans hmono
      · have h1 := (hm i hi).2
        rw [hval] at h1
        change |_ - (p.val out i + _)| ≤ E + (|p.val out i + _| + E) / 2 ^ 24 + 1 / 2 ^ 150 at h1
        have h2 := hAB i hi
        have h3 : (f32At m (out + 4 * i)).toRat - (T i + p.val out i) =
            ((f32At m (out + 4 * i)).toRat - (p.val out i + (f32At m0 (out + 4 * i)).toRat)) + ((f32At m0 (out + 4 * i)).toRat - T i) := by ring
        rw [h3]
        refine (abs_add_le _ _).trans ?_
        have h4 : (|p.val out i + (f32At m0 (out + 4 * i)).toRat| + E) / 2 ^ 24 ≤ (B + D + E) / 2 ^ 24 := div_le_div_of_nonneg_right (by linarith) (by positivity)
        have h5 : D1 = D + E + (B + D + E) / 2 ^ 24 + 1 / 2 ^ 150 := by rw [hD1, hηdef]; ring
        have h6 := (hA i hi).2
        rw [h5]
        linarith
      · have h1 := hB i hi
        have h4 := abs_add_le (T i) (p.val out i)
        show |T i + p.val out i| + _ ≤ B
        linarith

/-- C100. A partial sum travels through any number of peers, re-quantized at every hop with that hop's type, parameters and
rounding mode: the last partial sum is finite and differs from the true sum of all tensors by at most the sum of the
hops' quantization errors plus the float32 rounding of the additions (partial sums of magnitude at most `B`), inflated by
`(1 + 2^-24)^hops`, provided the representable ranges contain `[-R, R]` with `R` at least `B` plus that error. -/
theorem C100_ring_error (hops : List Hop) {B R : ℚ} (h : ∀ h ∈ hops, h.Ok n out R)
    (hfin : ∀ i, i < n → (f32At m0 (out + 4 * i)).isFin = true) (hB0 : 0 ≤ B)
    (hB : ∀ i, i < n → |(f32At m0 (out + 4 * i)).toRat| + (hops.map (fun h => |h.val out i|)).sum ≤ B)
    (hR : R ≤ 2 ^ 127)
    (hM : B + (1 + 1 / 2 ^ 24) ^ hops.length * ((hops.map Hop.err).sum + hops.length * (B / 2 ^ 24 + 1 / 2 ^ 150)) ≤ R) :
    Ring n out hops m0 (fun m => ∀ i, i < n → (f32At m (out + 4 * i)).isFin = true ∧
      |(f32At m (out + 4 * i)).toRat - ((f32At m0 (out + 4 * i)).toRat + (hops.map (fun h => h.val out i)).sum)| ≤
        (1 + 1 / 2 ^ 24) ^ hops.length * ((hops.map Hop.err).sum + hops.length * (B / 2 ^ 24 + 1 / 2 ^ 150))) := by
  have := ring_core (n := n) (out := out) hops (B := B) (m0 := m0) (T := fun i => (f32At m0 (out + 4 * i)).toRat) (D := 0) h (le_refl _)
    (fun i hi => ⟨hfin i hi, by simp⟩) hB0 hB hR (by rw [zero_add]; exact hM)
  rw [zero_add] at this
  exact this

/-- A peer that receives the final codes: its context, its readable size, and where it wants the result. -/
structure Reader where
  c : Ctx
  sz : Nat
  o : Nat
  mem : Mem

/-- C100, whole all-reduce: after the ring the last peer quantizes the sum (parameters of `g`) and any number of peers, on any
CPUs, dequantize these codes.  All of them hold bit-identical floats, and these are within the ring's error plus the error of
the last quantization of the true sum. -/
theorem C100_allreduce (hops : List Hop) (g : Hop) (readers : List Reader) {B R : ℚ} (h : ∀ h ∈ hops, h.Ok n out R) (hg : g.Ok n out R)
    (hrd : ∀ r ∈ readers, Sizes n r.c.threads ∧ bytes g.dt.bits n ≤ r.sz ∧ Readable g.dt .f32 n r.sz)
    (hfin : ∀ i, i < n → (f32At m0 (out + 4 * i)).isFin = true) (hB0 : 0 ≤ B)
    (hB : ∀ i, i < n → |(f32At m0 (out + 4 * i)).toRat| + (hops.map (fun h => |h.val out i|)).sum ≤ B)
    (hR : R ≤ 2 ^ 127)
    (hM : B + (1 + 1 / 2 ^ 24) ^ hops.length * ((hops.map Hop.err).sum + hops.length * (B / 2 ^ 24 + 1 / 2 ^ 150)) ≤ R) :
    Ring n out hops m0 (fun m =>
      Always NoFault (quantize g.c ⟨4 * n, fun a => m (out + a)⟩ .f32 g.o (bytes g.dt.bits n) g.dt g.s g.z g.mode g.τ) (span g.o (bytes g.dt.bits n)) g.mem (fun mq =>
        ∃ y : Nat → F32,
          (∀ i, i < n → (y i).isFin = true ∧
            |(y i).toRat - ((f32At m0 (out + 4 * i)).toRat + (hops.map (fun h => h.val out i)).sum)| ≤
              (1 + 1 / 2 ^ 24) ^ hops.length * ((hops.map Hop.err).sum + hops.length * (B / 2 ^ 24 + 1 / 2 ^ 150)) + g.err) ∧
          ∀ r ∈ readers,
            Always NoFault (dequantize r.c ⟨r.sz, fun a => mq (g.o + a)⟩ (bytes g.dt.bits n) g.dt r.o (4 * n) .f32 g.s g.z .set) (span r.o (4 * n)) r.mem
              (fun m' => ∀ i, i < n → f32At m' (r.o + 4 * i) = y i))) := by
  refine Ring.mono (fun m hm => ?_) (C100_ring_error hops h hfin hB0 hB hR hM)
  have hs : 0 < g.s.toRat := lt_of_lt_of_le (by positivity) hg.lo
  have hsf : g.s.isFin = true := isFin_of_abs (by
    rw [abs_of_pos hs, emax_f32]; exact lt_of_le_of_lt hg.hi (by norm_num))
  have hsumle : ∀ i, |(hops.map (fun h => h.val out i)).sum| ≤ (hops.map (fun h => |h.val out i|)).sum := by
    intro i
    clear hM hB h hm
    induction hops with
    | nil => simp
    | cons p l ih =>
      simp only [List.map_cons, List.sum_cons]
      exact (abs_add_le _ _).trans (by linarith)
  have hok := hg.peer (m := m) (fun i hi => ⟨(hm i hi).1, by
    have h1 := (hm i hi).2
    have h2 := hB i hi
    have h3 := hsumle i
    have h4 := abs_add_le (f32At m0 (out + 4 * i)).toRat (hops.map (fun h => h.val out i)).sum
    have h5 := abs_add_le ((f32At m (out + 4 * i)).toRat - ((f32At m0 (out + 4 * i)).toRat + (hops.map (fun h => h.val out i)).sum))
      ((f32At m0 (out + 4 * i)).toRat + (hops.map (fun h => h.val out i)).sum)
    rw [sub_add_cancel] at h5
    linarith⟩)
  refine Always.mono (peer_codes hok) (fun _ h => h) (fun mq hq => ?_)
  refine ⟨fun i => dequant g.s g.z (code g.dt.bits mq g.o i), fun i hi => ?_, fun r hr => ?_⟩
  · obtain ⟨k1, k2⟩ := hq i hi
    have k2' : |(((code g.dt.bits mq g.o i : ℤ) - g.z : ℤ) : ℚ) - (elem .f32 (Hop.peer n out g m).x.data 0 i).toRat / g.s.toRat| ≤ tol g.mode + 1 / 2 ^ 13 + 1 / 2 ^ 25 := k2
    obtain ⟨a1, a2⟩ := near_of (y := elem .f32 (Hop.peer n out g m).x.data 0 i) (e := tol g.mode) k1 hsf hg.lo hg.hi k2'
    rw [Hop.peer_elem] at a2
    refine ⟨a1, ?_⟩
    have h1 := (hm i hi).2
    have h5 := abs_add_le ((dequant g.s g.z (code g.dt.bits mq g.o i)).toRat - (f32At m (out + 4 * i)).toRat)
      ((f32At m (out + 4 * i)).toRat - ((f32At m0 (out + 4 * i)).toRat + (hops.map (fun h => h.val out i)).sum))
    rw [sub_add_sub_cancel] at h5
    have a3 : |(dequant g.s g.z (code g.dt.bits mq g.o i)).toRat - (f32At m (out + 4 * i)).toRat| ≤ g.err := a2
    linarith
  · obtain ⟨b1, b2, b3⟩ := hrd r hr
    have hz := hg.zp
    have hQ := qmax_bounds hg.quant
    have hzs : ZpSub g.z := by unfold ZpSub; norm_num; omega
    refine (C09_dequantize_f32_formula (c := r.c) ⟨hg.quant, rfl, b2, b1⟩ b3 hzs).mono (fun _ h => h) (fun m' hm' i hi => ?_)
    rw [hm' i hi]
    have e : code g.dt.bits (fun a => mq (g.o + a)) 0 i = code g.dt.bits mq g.o i := code_shift _ _ _ _
    rw [show (InBuf.data ⟨r.sz, fun a => mq (g.o + a)⟩) = fun a => mq (g.o + a) from rfl, e]

/-- Memory with the five floats of `Ex.xs` (1, -2.5, 0.3, 7.75, 100) at address 0. -/
def ringMem : Mem := Ex.xs.data

/-- Two hops: uint8 with scale 4 and zero point 100 (nearest), uint8 with scale 5 and zero point 128 (stochastic). -/
def exHops : List Hop :=
  [⟨.uint8, ⟨false, 0x40800000⟩, 100, .nearest, f0, ⟨.avx2, 3, .none⟩, 64, fun _ => 0, ⟨.portable, 2, .none⟩, 5, ringMem⟩,
   ⟨.uint8, ⟨false, 0x40a00000⟩, 128, .stochastic, Ex.quarter, ⟨.sse42, 2, .none⟩, 64, fun _ => 1, ⟨.avx512f, 4, .none⟩, 5, ringMem⟩]

theorem exHops_ok : ∀ h ∈ exHops, h.Ok 5 0 320 := by
  intro p hp
  simp only [exHops, List.mem_cons, List.not_mem_nil, or_false] at hp
  rcases hp with rfl | rfl
  · exact ⟨rfl, sz 5 3, sz 5 2, by decide +kernel, by decide +kernel, (fun h => by cases h), by decide, by decide +kernel, by decide +kernel, by decide, (fun h => by cases h), (fun h => by cases h), by decide +kernel⟩
  · exact ⟨rfl, sz 5 2, sz 5 4, by decide +kernel, by decide +kernel, (fun _ => by decide +kernel), by decide, by decide +kernel, by decide +kernel, by decide, (fun h => by cases h), (fun h => by cases h), by decide +kernel⟩

/-- `C100_ring_error` applied to a concrete case: three peers with the same five numbers. -/
example := C100_ring_error (n := 5) (out := 0) (m0 := ringMem) (hops := exHops) (B := 300) (R := 320) (h := exHops_ok)
    (hfin := by decide +kernel) (hB0 := by norm_num) (hB := by decide +kernel) (hR := by norm_num) (hM := by decide +kernel)

/-- `C100_allreduce` applied to a concrete case: the sum is sent as uint8 with scale 4 and read by an AVX2 and a portable peer. -/
example := C100_allreduce (n := 5) (out := 0) (m0 := ringMem) (hops := exHops) (B := 300) (R := 320) (h := exHops_ok)
    (g := ⟨.uint8, ⟨false, 0x40800000⟩, 100, .nearest, f0, ⟨.avx2, 3, .none⟩, 64, fun _ => 0, ⟨.portable, 2, .none⟩, 5, ringMem⟩)
    (readers := [⟨⟨.avx2, 3, .none⟩, 5, 0, Ex.old⟩, ⟨⟨.portable, 1, .none⟩, 5, 1000, Ex.old⟩]) (hg := exHops_ok _ List.mem_cons_self)
    (hrd := by simp only [List.forall_mem_cons]; exact ⟨⟨sz 5 3, by decide, fun h => by cases h⟩, ⟨sz 5 1, by decide, fun h => by cases h⟩, by simp⟩)
    (hfin := by decide +kernel) (hB0 := by norm_num) (hB := by decide +kernel) (hR := by norm_num) (hM := by decide +kernel)

end Verif.Props
