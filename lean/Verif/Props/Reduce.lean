import Verif.Props.Examples
import Verif.Proofs.Accum

/-!
# Quantized reductions: C76

Several peers quantize their own tensor, send codes and parameters, and a receiver adds the dequantized values to its
accumulator, one peer after the other.
-/

namespace Verif.Props
open Spec

variable {n out : Nat} {m0 : Mem}

/-- One contribution: a tensor, parameters, rounding mode and threshold; where and with which context the peer quantizes it;
the receiver's context for this contribution and the readable size of its receive buffer. -/
structure Peer where
  ft : FT
  x : InBuf
  dt : DType
  s : F32
  z : ℤ
  mode : RoundMode
  τ : F32
  c : Ctx
  o : Nat
  mem : Mem
  c' : Ctx
  sz : Nat

/-- The contribution to element `i`. -/
def Peer.val (p : Peer) (i : Nat) : ℚ := (elem p.ft.dtype p.x.data 0 i).toRat

/-- Half a step (nearest) or a step (stochastic), up to `2^-12` of a step. -/
def Peer.err (p : Peer) : ℚ := p.s.toRat * (tol p.mode + 1 / 2 ^ 12)

/-- After every schedule of each peer's quantize call and of the receiver's dequantize(ADD) call on the codes it got, one
peer after the other: `Q` holds of the receiver's final memory. -/
def Reduce (n out : Nat) : List Peer → Mem → (Mem → Prop) → Prop
  | [], m, Q => Q m
  | p :: l, m, Q =>
    Always NoFault (quantize p.c p.x p.ft.dtype p.o (bytes p.dt.bits n) p.dt p.s p.z p.mode p.τ) (span p.o (bytes p.dt.bits n)) p.mem (fun mq =>
      Always NoFault (dequantize p.c' ⟨p.sz, fun a => mq (p.o + a)⟩ (bytes p.dt.bits n) p.dt out (4 * n) .f32 p.s p.z .add) (span out (4 * n)) m
        (fun m' => Reduce n out l m' Q))

/-- Parameters that suit the data: chosen so that the data is inside the representable range, or computed by the library
from that data, which lies around zero (SSE4.2 searches that miss an extreme excluded, see C22). -/
def Suits (p : Peer) (n : Nat) : Prop :=
  ((0 ≤ p.z ∧ p.z ≤ 2 ^ p.dt.bits - 1) ∧ InRange p.ft p.x n p.dt p.s p.z) ∨
  (∃ isa blocks lo hi, PArgs p.ft p.x n blocks p.dt ∧ 0 < n ∧ Sees isa p.ft p.x n blocks ∧ Range p.ft.dtype p.x.data n lo hi ∧ lo ≤ 0 ∧ 0 ≤ hi ∧
    computeQuantConfigFromData isa p.ft p.x blocks p.dt = .ret (p.s, p.z))

/-- A legal contribution of `n` finite elements.  For uint2 the element count must be a multiple of four (C10) and one byte
behind the receive buffer readable (C11). -/
structure Peer.Ok (p : Peer) (n : Nat) : Prop where
  args : QArgs p.c.threads p.x p.ft.dtype p.dt n
  recv : Sizes n p.c'.threads
  fin : AllFin p.ft p.x n
  lo : 1 / 2 ^ 126 ≤ p.s.toRat
  hi : p.s.toRat ≤ 2 ^ 119
  thr : Threshold p.mode p.τ
  suits : Suits p n
  size : bytes p.dt.bits n ≤ p.sz
  rd : Readable p.dt .f32 n p.sz
  tail : p.dt = .uint2 → n % 4 = 0

theorem Peer.Ok.covered {p : Peer} (h : p.Ok n) : ∃ A B, Covered p.ft p.x n p.dt p.s p.z A B := by
  rcases h.suits with ⟨hz, hr⟩ | ⟨isa, blocks, lo, hi, a, b, c, d, e, f, g⟩
  · exact ⟨_, _, covered_inRange hz (lt_of_lt_of_le (by positivity) h.lo) hr⟩
  · exact covered_computed a b h.fin c d ⟨e, f⟩ g h.lo h.hi

/-- The codes a peer sends. -/
theorem peer_codes {p : Peer} (h : p.Ok n) :
    Always NoFault (quantize p.c p.x p.ft.dtype p.o (bytes p.dt.bits n) p.dt p.s p.z p.mode p.τ) (span p.o (bytes p.dt.bits n)) p.mem (fun m =>
      ∀ i, i < n → |(code p.dt.bits m p.o i : ℤ) - p.z| ≤ 255 ∧
        |(((code p.dt.bits m p.o i : ℤ) - p.z : ℤ) : ℚ) - p.val i / p.s.toRat| ≤ tol p.mode + 1 / 2 ^ 13 + 1 / 2 ^ 25) := by
  obtain ⟨A, B, hc⟩ := h.covered
  exact codes_near hc h.args h.fin h.lo h.hi h.thr

theorem Reduce.mono {l : List Peer} : ∀ {m : Mem} {Q Q' : Mem → Prop}, (∀ m, Q m → Q' m) → Reduce n out l m Q → Reduce n out l m Q' := by
  induction l with
  | nil => intro m Q Q' hQ h; exact hQ _ h
  | cons p l ih =>
    intro m Q Q' hQ h
    exact Always.mono h (fun _ h => h) (fun mq hq => Always.mono hq (fun _ h => h) (fun m' hm' => ih hQ hm'))

/-- One contribution added to a finite accumulator. -/
theorem peer_step {p : Peer} (h : p.Ok n) (hfin : ∀ i, i < n → (f32At m0 (out + 4 * i)).isFin = true)
    (hb : ∀ i, i < n → |(f32At m0 (out + 4 * i)).toRat + p.val i| + p.err ≤ 2 ^ 127) {Q : Mem → Prop}
    (hQ : ∀ m, (∀ i, i < n → (f32At m (out + 4 * i)).isFin = true ∧
      |(f32At m (out + 4 * i)).toRat - ((f32At m0 (out + 4 * i)).toRat + p.val i)| ≤
        p.err + (|(f32At m0 (out + 4 * i)).toRat + p.val i| + p.err) / 2 ^ 24 + 1 / 2 ^ 150) → Q m) :
    Always NoFault (quantize p.c p.x p.ft.dtype p.o (bytes p.dt.bits n) p.dt p.s p.z p.mode p.τ) (span p.o (bytes p.dt.bits n)) p.mem (fun mq =>
      Always NoFault (dequantize p.c' ⟨p.sz, fun a => mq (p.o + a)⟩ (bytes p.dt.bits n) p.dt out (4 * n) .f32 p.s p.z .add) (span out (4 * n)) m0 Q) := by
  have hdt := h.args.outQuant
  have hQ' := qmax_bounds hdt
  obtain ⟨A, B, hc⟩ := h.covered
  have hzp := hc.zp
  have hzs : ZpSub p.z := by unfold ZpSub; norm_num; omega
  have hs : 0 < p.s.toRat := lt_of_lt_of_le (by positivity) h.lo
  have hsf : p.s.isFin = true := isFin_of_abs (by
    rw [abs_of_pos hs, emax_f32]; exact lt_of_le_of_lt h.hi (by norm_num))
  refine (peer_codes h).mono (fun _ h => h) (fun mq hq => ?_)
  refine (C10_add_f32_partial (c := p.c') ⟨hdt, rfl, h.size, h.recv⟩ h.rd hzs).mono (fun _ h => h) (fun m hm => hQ m (fun i hi => ?_))
  obtain ⟨b, _, e⟩ := hm i hi (fun ht => by have := h.tail ht; omega)
  have ec : code p.dt.bits (fun a => mq (p.o + a)) 0 i = code p.dt.bits mq p.o i := code_shift _ _ _ _
  rw [show (InBuf.data ⟨p.sz, fun a => mq (p.o + a)⟩) = fun a => mq (p.o + a) from rfl, ec] at e
  rw [e]
  obtain ⟨k1, k2⟩ := hq i hi
  exact plus_near (y := elem p.ft.dtype p.x.data 0 i) k1 hsf h.lo h.hi k2 (hfin i hi) (hb i hi)

/-- Induction over the peers: `T` is the true sum so far, `D` the error so far. -/
theorem reduce_core (peers : List Peer) {B : ℚ} : ∀ {m0 : Mem} {T : Nat → ℚ} {D : ℚ}, (∀ p ∈ peers, p.Ok n) → 0 ≤ D →
    (∀ i, i < n → (f32At m0 (out + 4 * i)).isFin = true ∧ |(f32At m0 (out + 4 * i)).toRat - T i| ≤ D) →
    0 ≤ B → (∀ i, i < n → |T i| + (peers.map (fun p => |p.val i|)).sum ≤ B) →
    B + (1 + 1 / 2 ^ 24) ^ peers.length * (D + ((peers.map Peer.err).sum + peers.length * (B / 2 ^ 24 + 1 / 2 ^ 150))) ≤ 2 ^ 127 →
    Reduce n out peers m0 (fun m => ∀ i, i < n → (f32At m (out + 4 * i)).isFin = true ∧
      |(f32At m (out + 4 * i)).toRat - (T i + (peers.map (fun p => p.val i)).sum)| ≤
        (1 + 1 / 2 ^ 24) ^ peers.length * (D + ((peers.map Peer.err).sum + peers.length * (B / 2 ^ 24 + 1 / 2 ^ 150)))) := by
  have hη : ∀ {B : ℚ}, 0 ≤ B → 0 ≤ B / 2 ^ 24 + 1 / 2 ^ 150 := fun h => by positivity
  induction peers with
  | nil =>
    intro m0 T D _ _ hA _ _ _ i hi
    simpa using hA i hi
  | cons p l ih =>
    intro m0 T D h hD hA hB0 hB hM
    have hp := h p List.mem_cons_self
    have hl : ∀ q ∈ l, q.Ok n := fun q hq => h q (List.mem_cons_of_mem _ hq)
    have herr : ∀ q : Peer, q.Ok n → 0 ≤ q.err := fun q hq => by
      have h1 : 0 < q.s.toRat := lt_of_lt_of_le (by positivity) hq.lo
      have h2 := half_le_tol (mode := q.mode)
      unfold Peer.err
      exact mul_nonneg h1.le (by have : (0:ℚ) ≤ 1 / 2 ^ 12 := by positivity
                                 linarith)
    have hE := herr p hp
    have hS : 0 ≤ (l.map Peer.err).sum := List.sum_nonneg (fun v hv => by
      obtain ⟨q, hq, rfl⟩ := List.mem_map.mp hv
      exact herr q (hl q hq))
    have hη := hη hB0
    have hηd : B / 2 ^ 24 + 1 / 2 ^ 150 = B * (1 / 2 ^ 24) + 1 / 2 ^ 150 := by ring
    have hu : (0:ℚ) ≤ 1 / 2 ^ 24 := by positivity
    simp only [List.map_cons, List.sum_cons, List.length_cons, Nat.cast_add, Nat.cast_one] at hM hB ⊢
    set E := p.err
    set S := (l.map Peer.err).sum
    set N : ℚ := (l.length : ℚ) with hN
    have hN0 : 0 ≤ N := by rw [hN]; positivity
    set η := B / 2 ^ 24 + 1 / 2 ^ 150 with hηdef
    set D1 := (1 + 1 / 2 ^ 24) * (D + E) + η with hD1
    have hw : (0:ℚ) ≤ 1 + 1 / 2 ^ 24 := by linarith
    have hD10 : 0 ≤ D1 := add_nonneg (mul_nonneg hw (by linarith)) hη
    have hP : 1 ≤ (1 + 1 / 2 ^ 24 : ℚ) ^ l.length := one_le_pow₀ (by linarith)
    have hNη : 0 ≤ N * η := mul_nonneg hN0 hη
    have hstep : D1 + (S + N * η) ≤ (1 + 1 / 2 ^ 24) * (D + (E + S + (N + 1) * η)) := by
      have : (1 + 1 / 2 ^ 24) * (D + (E + S + (N + 1) * η)) - (D1 + (S + N * η)) = 1 / 2 ^ 24 * (S + N * η + η) := by
        rw [hD1]; ring
      have h2 : 0 ≤ (1:ℚ) / 2 ^ 24 * (S + N * η + η) := mul_nonneg hu (by linarith)
      linarith
    have hmono : (1 + 1 / 2 ^ 24 : ℚ) ^ l.length * (D1 + (S + N * η)) ≤ (1 + 1 / 2 ^ 24) ^ (l.length + 1) * (D + (E + S + (N + 1) * η)) := by
      rw [pow_succ (1 + 1 / 2 ^ 24 : ℚ) l.length, mul_assoc]
      exact mul_le_mul_of_nonneg_left hstep (by linarith)
    have hDE : D + E ≤ (1 + 1 / 2 ^ 24) ^ (l.length + 1) * (D + (E + S + (N + 1) * η)) := by
      have h1 : D + E ≤ D1 + (S + N * η) := by
        have : D1 = D + E + 1 / 2 ^ 24 * (D + E) + η := by rw [hD1]; ring
        have h2 : 0 ≤ (1:ℚ) / 2 ^ 24 * (D + E) := mul_nonneg hu (by linarith)
        linarith
      refine (h1.trans ?_).trans hmono
      exact le_mul_of_one_le_left (by linarith) hP
    have hAB : ∀ i, i < n → |(f32At m0 (out + 4 * i)).toRat + p.val i| ≤ B + D := fun i hi => by
      have h1 := hB i hi
      have h2 : 0 ≤ (l.map (fun p => |p.val i|)).sum := List.sum_nonneg (fun v hv => by
        obtain ⟨q, _, rfl⟩ := List.mem_map.mp hv
        exact abs_nonneg _)
      have h3 : (f32At m0 (out + 4 * i)).toRat + p.val i = ((f32At m0 (out + 4 * i)).toRat - T i) + (T i + p.val i) := by ring
      rw [h3]
      refine (abs_add_le _ _).trans ?_
      have h4 := abs_add_le (T i) (p.val i)
      linarith [(hA i hi).2]
    refine peer_step hp (fun i hi => (hA i hi).1) (fun i hi => ?_) (fun m hm => ?_)
    · have := hAB i hi
      show _ + E ≤ _
      linarith
    · refine Reduce.mono ?_ (ih (m0 := m) (T := fun i => T i + p.val i) (D := D1) hl hD10 (fun i hi => ⟨(hm i hi).1, ?_⟩) hB0 (fun i hi => ?_) (by linarith))
      · intro m' hm' i hi
        refine ⟨(hm' i hi).1, ?_⟩
        have := (hm' i hi).2
        rw [add_assoc] at this
        exact this.trans hmono
      · have h1 := (hm i hi).2
        have h2 := hAB i hi
        have h3 : (f32At m (out + 4 * i)).toRat - (T i + p.val i) =
            ((f32At m (out + 4 * i)).toRat - ((f32At m0 (out + 4 * i)).toRat + p.val i)) + ((f32At m0 (out + 4 * i)).toRat - T i) := by ring
        rw [h3]
        refine (abs_add_le _ _).trans ?_
        have h4 : (|(f32At m0 (out + 4 * i)).toRat + p.val i| + E) / 2 ^ 24 ≤ (B + D + E) / 2 ^ 24 := div_le_div_of_nonneg_right (by linarith) (by positivity)
        have h5 : D1 = D + E + (B + D + E) / 2 ^ 24 + 1 / 2 ^ 150 := by rw [hD1, hηdef]; ring
        have h6 := (hA i hi).2
        show _ ≤ D1
        rw [h5]
        change _ ≤ E + _ + _ at h1
        linarith
      · have h1 := hB i hi
        have h4 := abs_add_le (T i) (p.val i)
        show |T i + p.val i| + _ ≤ B
        linarith

/-- C76. Any number of peers, each with its own tensor, type, parameters (chosen or computed), rounding mode, contexts: after
the reduction every element of the accumulator is finite and differs from the true sum of the old value and all
contributions by at most the sum of the peers' quantization errors plus the float32 rounding of the additions
(`N` additions of sums of magnitude at most `B`), inflated by `(1 + 2^-24)^N`. -/
theorem C76_reduction_error (peers : List Peer) (h : ∀ p ∈ peers, p.Ok n) {B : ℚ}
    (hfin : ∀ i, i < n → (f32At m0 (out + 4 * i)).isFin = true)
    (hB : ∀ i, i < n → |(f32At m0 (out + 4 * i)).toRat| + (peers.map (fun p => |p.val i|)).sum ≤ B)
    (hM : B + (1 + 1 / 2 ^ 24) ^ peers.length * ((peers.map Peer.err).sum + peers.length * (B / 2 ^ 24 + 1 / 2 ^ 150)) ≤ 2 ^ 127) :
    Reduce n out peers m0 (fun m => ∀ i, i < n → (f32At m (out + 4 * i)).isFin = true ∧
      |(f32At m (out + 4 * i)).toRat - ((f32At m0 (out + 4 * i)).toRat + (peers.map (fun p => p.val i)).sum)| ≤
        (1 + 1 / 2 ^ 24) ^ peers.length * ((peers.map Peer.err).sum + peers.length * (B / 2 ^ 24 + 1 / 2 ^ 150))) := by
  rcases Nat.eq_zero_or_pos n with h0 | h0
  · have : ∀ (l : List Peer) (m : Mem), (∀ p ∈ l, p.Ok n) → Reduce n out l m (fun m => ∀ i, i < n → (f32At m (out + 4 * i)).isFin = true ∧
        |(f32At m (out + 4 * i)).toRat - ((f32At m0 (out + 4 * i)).toRat + (peers.map (fun p => p.val i)).sum)| ≤
          (1 + 1 / 2 ^ 24) ^ peers.length * ((peers.map Peer.err).sum + peers.length * (B / 2 ^ 24 + 1 / 2 ^ 150))) := by
      intro l
      induction l with
      | nil => intro m _ i hi; omega
      | cons p l ih =>
        intro m hl
        exact peer_step (hl p List.mem_cons_self) (fun i hi => by omega) (fun i hi => by omega) (fun m' _ => ih m' (fun q hq => hl q (List.mem_cons_of_mem _ hq)))
    exact this peers m0 h
  · have hB0 : 0 ≤ B := by
      refine le_trans (add_nonneg (abs_nonneg _) (List.sum_nonneg (fun v hv => ?_))) (hB 0 h0)
      obtain ⟨q, _, rfl⟩ := List.mem_map.mp hv
      exact abs_nonneg _
    have := reduce_core (n := n) (out := out) peers (B := B) (m0 := m0) (T := fun i => (f32At m0 (out + 4 * i)).toRat) (D := 0) h (le_refl _)
      (fun i hi => ⟨hfin i hi, by simp⟩) hB0 hB (by rw [zero_add]; exact hM)
    rw [zero_add] at this
    exact this

/-- Two peers: 1, -2.5, 0.3, 7.75, 100 as float32, sent as uint8 with scale 1/2 (nearest), and 1, -2.5, 3, 0, 8 as bf16,
sent as uint4 with scale 1 (stochastic, threshold 1/4). -/
def exPeers : List Peer :=
  [⟨.f32, Ex.xs, .uint8, Ex.half, 10, .nearest, f0, ⟨.avx2, 3, .none⟩, 0, fun _ => 0, ⟨.portable, 2, .none⟩, 5⟩,
   ⟨.bf16, Ex.buf (Ex.words16 [0x3f80, 0xc020, 0x4040, 0, 0x4100]), .uint4, f1, 7, .stochastic, Ex.quarter, ⟨.sse42, 2, .none⟩, 64, fun _ => 1, ⟨.avx512f, 4, .none⟩, 3⟩]

theorem exPeers_ok : ∀ p ∈ exPeers, p.Ok 5 := by
  intro p hp
  simp only [exPeers, List.mem_cons, List.not_mem_nil, or_false] at hp
  rcases hp with rfl | rfl
  · refine ⟨⟨rfl, rfl, rfl, sz 5 3⟩, sz 5 2, ?_, by decide +kernel, by decide +kernel, (fun h => by cases h), Or.inl ⟨by decide, ?_⟩, by decide, (fun h => by cases h), (fun h => by cases h)⟩
    · unfold AllFin; decide +kernel
    · unfold InRange; decide +kernel
  · refine ⟨⟨rfl, rfl, rfl, sz 5 2⟩, sz 5 4, ?_, by decide +kernel, by decide +kernel, fun _ => by decide +kernel, Or.inl ⟨by decide, ?_⟩, by decide, (fun h => by cases h), (fun h => by cases h)⟩
    · unfold AllFin; decide +kernel
    · unfold InRange; decide +kernel

/-- The bound for this example: every element of the sum is right to within 1.2508. -/
example : (1 + 1 / 2 ^ 24 : ℚ) ^ exPeers.length * ((exPeers.map Peer.err).sum + exPeers.length * (108 / 2 ^ 24 + 1 / 2 ^ 150)) ≤ 1.2508 ∧
    ∀ i, i < 5 → |(f32At (fun _ => 0) (0 + 4 * i)).toRat| + (exPeers.map (fun p => |p.val i|)).sum ≤ 108 := by
  constructor
  · decide +kernel
  · decide +kernel

/-- `C76_reduction_error` applied to a concrete case. -/
example := C76_reduction_error (n := 5) (out := 0) (m0 := (fun _ => 0)) (peers := exPeers) (h := exPeers_ok) (B := 108) (hfin := by wit) (hB := by wit)
    (hM := by wit)

end Verif.Props
