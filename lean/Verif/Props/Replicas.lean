import Verif.Props.DequantSame
import Verif.Props.Feedback
import Verif.Props.Reduce

/-!
# Replicas that apply the same updates: C111, C112

Every replica keeps its own copy of a tensor and applies the same sequence of quantized updates to it, with dequantize(ADD), or dequantize(SET) for a refresh.
-/

namespace Verif.Props
open Spec

/-- What is transmitted: type, parameters, reduce operation and codes. -/
structure Update where
  dt : DType
  s : F32
  z : ℤ
  op : ReduceOp
  q : Nat → Nat

/-- How one replica applies an update: its context and the receive buffer. -/
structure Site where
  c : Ctx
  x : InBuf

/-- The receive buffer holds the codes of the update (and the byte behind it can be read where the kernel looks at it, see C11). -/
structure Site.Holds (p : Site) (u : Update) (ft : FT) (n : Nat) : Prop where
  args : DArgs p.c.threads p.x u.dt ft.dtype n
  rd : Readable u.dt ft.dtype n p.x.size
  codes : ∀ i, i < n → code u.dt.bits p.x.data 0 i = u.q i

/-- After every schedule of the calls, one after the other, on the buffer of `n` elements at `o`: `Q` holds of the memory. -/
def Replay (ft : FT) (n o : Nat) : List (Update × Site) → Mem → (Mem → Prop) → Prop
  | [], m, Q => Q m
  | (u, p) :: l, m, Q =>
    Always NoFault (dequantize p.c p.x (bytes u.dt.bits n) u.dt o (ft.size * n) ft.dtype u.s u.z u.op) (span o (ft.size * n)) m (fun m' => Replay ft n o l m' Q)

/-- The float32 after an update of element `i` of `n`, given the old one; `b`: product and sum are contracted.  In ADD mode the last `n % 4` elements of a uint2 tensor are overwritten (C10). -/
def Update.next (b : Bool) (n i : Nat) (v : F32) (u : Update) : F32 :=
  match u.op with
  | .set => dequant u.s u.z (u.q i)
  | .add => if u.dt = .uint2 ∧ n / 4 * 4 ≤ i then dequant u.s u.z (u.q i) else plus b v u.s u.z (u.q i)

section
variable {n o o' : Nat} {m0 m0' : Mem} {b : Bool}

theorem Replay.mono {ft : FT} {l : List (Update × Site)} : ∀ {m : Mem} {Q Q' : Mem → Prop}, (∀ m, Q m → Q' m) → Replay ft n o l m Q → Replay ft n o l m Q' := by
  induction l with
  | nil => exact fun h hq => h _ hq
  | cons h l ih =>
    intro m Q Q' hQ hc
    exact Always.mono hc (fun _ h => h) (fun _ hm => ih hQ hm)

theorem update_f32 {u : Update} {p : Site} (hu : Uniform p.c b) (h : p.Holds u .f32 n) (hz : ZpSub u.z) :
    Always NoFault (dequantize p.c p.x (bytes u.dt.bits n) u.dt o (FT.f32.size * n) FT.f32.dtype u.s u.z u.op) (span o (FT.f32.size * n)) m0
      (fun m => ∀ i, i < n → f32At m (o + 4 * i) = u.next b n i (f32At m0 (o + 4 * i))) := by
  refine (dequantize_vals (ft := .f32) (op := u.op) h.args h.rd hz).mono (fun _ h => h) (fun m hm i hi => ?_)
  have := hm.1 i hi
  unfold DqOut at this
  simp only at this
  obtain ⟨b', hb, this⟩ := this
  rw [this, dqF_eq (dt := u.dt) hz (code_lt256 h.args.inQuant _ _ _), h.codes i hi, hu.has hb]
  unfold Update.next
  cases u.op
  · rw [ite_self]; rfl
  · by_cases ht : u.dt = .uint2 ∧ n / 4 * 4 ≤ i
    · rw [if_pos ht]; simp only [if_pos ht]; rfl
    · rw [if_neg ht]; simp only [if_neg ht]; rfl

/-- C111, float32: after any history of updates element `i` is a function of its first value and the updates' codes, parameters and operations alone: whatever kernels, thread counts and
schedules the replica used (builds that contract all sums, or none). -/
theorem C111_history_f32_partial (l : List (Update × Site)) (h : ∀ h ∈ l, ZpSub h.1.z ∧ Uniform h.2.c b ∧ h.2.Holds h.1 .f32 n) :
    Replay .f32 n o l m0 (fun m => ∀ i, i < n → f32At m (o + 4 * i) = (l.map Prod.fst).foldl (fun v u => u.next b n i v) (f32At m0 (o + 4 * i))) := by
  induction l generalizing m0 with
  | nil => exact fun i hi => rfl
  | cons g l ih =>
    obtain ⟨u, p⟩ := g
    obtain ⟨h1, h2, h3⟩ := h (u, p) (List.mem_cons_self ..)
    refine (update_f32 h2 h3 h1).mono (fun _ h => h) (fun m' hm' => ?_)
    refine (ih (m0 := m') (fun g hg => h g (List.mem_cons_of_mem _ hg))).mono (fun m hm i hi => ?_)
    rw [hm i hi, hm' i hi]
    rfl

/-- C111, float32: two replicas that start with the same elements and apply the same updates, each with its own kernels, thread counts, schedules, addresses and receive buffers, end with
the same elements, bit for bit (both in builds that contract all sums, or both in builds that contract none). -/
theorem C111_replicas_f32_partial (l : List (Update × Site × Site))
    (h : ∀ h ∈ l, ZpSub h.1.z ∧ (Uniform h.2.1.c b ∧ h.2.1.Holds h.1 .f32 n) ∧ Uniform h.2.2.c b ∧ h.2.2.Holds h.1 .f32 n)
    (h0 : ∀ i, i < n → f32At m0 (o + 4 * i) = f32At m0' (o' + 4 * i)) :
    Replay .f32 n o (l.map (fun h => (h.1, h.2.1))) m0 (fun m => Replay .f32 n o' (l.map (fun h => (h.1, h.2.2))) m0' (fun m' =>
      ∀ i, i < n → f32At m (o + 4 * i) = f32At m' (o' + 4 * i))) := by
  refine (C111_history_f32_partial (b := b) _ (fun g hg => ?_)).mono (fun m hm => ?_)
  · obtain ⟨k, hk, rfl⟩ := List.mem_map.mp hg
    have := h k hk
    exact ⟨this.1, this.2.1⟩
  refine (C111_history_f32_partial (b := b) _ (fun g hg => ?_)).mono (fun m' hm' i hi => ?_)
  · obtain ⟨k, hk, rfl⟩ := List.mem_map.mp hg
    have := h k hk
    exact ⟨this.1, this.2.2⟩
  rw [hm i hi, hm' i hi, h0 i hi, List.map_map, List.map_map]
  rfl

/-- The word a kernel without AVX-512 leaves in a bf16 buffer. -/
theorem update_bf16 {u : Update} {p : Site} (hi : p.c.isa ≠ .avx512f ∧ p.c.isa ≠ .avx512bf16) (h : p.Holds u .bf16 n) (hz : ZpSub u.z) :
    Always NoFault (dequantize p.c p.x (bytes u.dt.bits n) u.dt o (FT.bf16.size * n) FT.bf16.dtype u.s u.z u.op) (span o (FT.bf16.size * n)) m0
      (fun m => ∀ i, i < n → u16At m (o + 2 * i) = opW u.op (u16At m0 (o + 2 * i)) (f32ToBf16 (dqB u.dt u.s u.z (u.q i)))) := by
  refine (dequantize_vals (ft := .bf16) (op := u.op) h.args h.rd hz).mono (fun _ h => h) (fun m hm i hi' => ?_)
  rcases hm.1 i hi' with g | ⟨g | g, _⟩
  · rw [g, h.codes i hi']
  · exact absurd g hi.1
  · exact absurd g hi.2

theorem history_bf16 (l : List (Update × Site)) (h : ∀ h ∈ l, ZpSub h.1.z ∧ (h.2.c.isa ≠ .avx512f ∧ h.2.c.isa ≠ .avx512bf16) ∧ h.2.Holds h.1 .bf16 n) :
    Replay .bf16 n o l m0 (fun m => ∀ i, i < n →
      u16At m (o + 2 * i) = (l.map Prod.fst).foldl (fun v u => opW u.op v (f32ToBf16 (dqB u.dt u.s u.z (u.q i)))) (u16At m0 (o + 2 * i))) := by
  induction l generalizing m0 with
  | nil => exact fun i hi => rfl
  | cons g l ih =>
    obtain ⟨u, p⟩ := g
    obtain ⟨h1, h2, h3⟩ := h (u, p) (List.mem_cons_self ..)
    refine (update_bf16 h2 h3 h1).mono (fun _ h => h) (fun m' hm' => ?_)
    refine (ih (m0 := m') (fun g hg => h g (List.mem_cons_of_mem _ hg))).mono (fun m hm i hi => ?_)
    rw [hm i hi, hm' i hi]
    rfl

/-- C111, bfloat16: the same for replicas without AVX-512 (with it the kernels round differently, `C111_false_bf16`). -/
theorem C111_replicas_bf16_partial (l : List (Update × Site × Site))
    (h : ∀ h ∈ l, ZpSub h.1.z ∧ ((h.2.1.c.isa ≠ .avx512f ∧ h.2.1.c.isa ≠ .avx512bf16) ∧ h.2.1.Holds h.1 .bf16 n) ∧
      (h.2.2.c.isa ≠ .avx512f ∧ h.2.2.c.isa ≠ .avx512bf16) ∧ h.2.2.Holds h.1 .bf16 n)
    (h0 : ∀ i, i < n → u16At m0 (o + 2 * i) = u16At m0' (o' + 2 * i)) :
    Replay .bf16 n o (l.map (fun h => (h.1, h.2.1))) m0 (fun m => Replay .bf16 n o' (l.map (fun h => (h.1, h.2.2))) m0' (fun m' =>
      ∀ i, i < n → u16At m (o + 2 * i) = u16At m' (o' + 2 * i))) := by
  refine (history_bf16 _ (fun g hg => ?_)).mono (fun m hm => ?_)
  · obtain ⟨k, hk, rfl⟩ := List.mem_map.mp hg
    have := h k hk
    exact ⟨this.1, this.2.1⟩
  refine (history_bf16 _ (fun g hg => ?_)).mono (fun m' hm' i hi => ?_)
  · obtain ⟨k, hk, rfl⟩ := List.mem_map.mp hg
    have := h k hk
    exact ⟨this.1, this.2.2⟩
  rw [hm i hi, hm' i hi, h0 i hi, List.map_map, List.map_map]
  rfl

end

/-! ## Witnesses for C111 -/

/-- A uint4 update (ADD), a uint8 refresh (SET) and a uint2 update (ADD) of 70 elements, each applied by an AVX-512 replica with three workers and by an SSE4.2 replica with two. -/
def exUpdates : List (Update × Site × Site) :=
  [(⟨.uint4, Ex.tenth, 7, .add, fun i => code 4 Ex.codes.data 0 i⟩, ⟨⟨.avx512f, 3, .none⟩, Ex.codes⟩, ⟨⟨.sse42, 2, .none⟩, Ex.codes⟩),
   (⟨.uint8, Ex.half, 60, .set, fun i => code 8 Ex.codes.data 0 i⟩, ⟨⟨.avx512f, 3, .none⟩, Ex.codes⟩, ⟨⟨.portable, 1, .none⟩, Ex.codes⟩),
   (⟨.uint2, Ex.quarter, 2, .add, fun i => code 2 Ex.codes.data 0 i⟩, ⟨⟨.neon, 4, .none⟩, Ex.codes⟩, ⟨⟨.sse42, 2, .none⟩, Ex.codes⟩)]

theorem exUpdates_ok : ∀ h ∈ exUpdates, ZpSub h.1.z ∧ (Uniform h.2.1.c false ∧ h.2.1.Holds h.1 .f32 70) ∧ Uniform h.2.2.c false ∧ h.2.2.Holds h.1 .f32 70 := by
  intro p hp
  simp only [exUpdates, List.mem_cons, List.not_mem_nil, or_false] at hp
  rcases hp with rfl | rfl | rfl
  · exact ⟨by decide, ⟨rfl, ⟨rfl, rfl, by decide +kernel, sz 70 3⟩, (fun h => by cases h), fun _ _ => rfl⟩, rfl, ⟨rfl, rfl, by decide +kernel, sz 70 2⟩, (fun h => by cases h), fun _ _ => rfl⟩
  · exact ⟨by decide, ⟨rfl, ⟨rfl, rfl, by decide +kernel, sz 70 3⟩, (fun h => by cases h), fun _ _ => rfl⟩, rfl, ⟨rfl, rfl, by decide +kernel, sz 70 1⟩, (fun h => by cases h), fun _ _ => rfl⟩
  · exact ⟨by decide, ⟨rfl, ⟨rfl, rfl, by decide +kernel, sz 70 4⟩, (fun _ _ _ h => absurd h (by decide)), fun _ _ => rfl⟩, rfl,
      ⟨rfl, rfl, by decide +kernel, sz 70 2⟩, (fun _ _ _ h => absurd h (by decide)), fun _ _ => rfl⟩

/-- `C111_history_f32_partial` applied to a concrete case. -/
example := C111_history_f32_partial (b := false) (n := 70) (o := 1000) (m0 := Ex.old) (exUpdates.map (fun h => (h.1, h.2.1)))
  (h := fun g hg => by
    obtain ⟨k, hk, rfl⟩ := List.mem_map.mp hg
    have := exUpdates_ok k hk
    exact ⟨this.1, this.2.1⟩)

/-- `C111_replicas_f32_partial` applied to a concrete case. -/
example := C111_replicas_f32_partial (b := false) (n := 70) (o := 1000) (o' := 1000) (m0 := Ex.old) (m0' := Ex.old) exUpdates (h := exUpdates_ok) (h0 := fun _ _ => rfl)

/-- Two uint4 updates of 139 bf16 elements. -/
def exUpdatesB : List (Update × Site × Site) :=
  [(⟨.uint4, Ex.tenth, 7, .add, fun i => code 4 Ex.codes.data 0 i⟩, ⟨⟨.avx2, 3, .none⟩, Ex.codes⟩, ⟨⟨.sse42, 2, .none⟩, Ex.codes⟩),
   (⟨.uint4, Ex.half, 3, .add, fun i => code 4 Ex.codes.data 0 i⟩, ⟨⟨.neon, 3, .none⟩, Ex.codes⟩, ⟨⟨.portable, 1, .none⟩, Ex.codes⟩)]

/-- `C111_replicas_bf16_partial` applied to a concrete case. -/
example := C111_replicas_bf16_partial (n := 139) (o := 1000) (o' := 1000) (m0 := Ex.old) (m0' := Ex.old) exUpdatesB
  (h := fun p hp => by
    simp only [exUpdatesB, List.mem_cons, List.not_mem_nil, or_false] at hp
    rcases hp with rfl | rfl
    · exact ⟨by decide, ⟨by decide, ⟨rfl, rfl, by decide +kernel, sz 139 3⟩, (fun h => by cases h), fun _ _ => rfl⟩, by decide, ⟨rfl, rfl, by decide +kernel, sz 139 2⟩, (fun h => by cases h),
        fun _ _ => rfl⟩
    · exact ⟨by decide, ⟨by decide, ⟨rfl, rfl, by decide +kernel, sz 139 3⟩, (fun h => by cases h), fun _ _ => rfl⟩, by decide, ⟨rfl, rfl, by decide +kernel, sz 139 1⟩, (fun h => by cases h),
        fun _ _ => rfl⟩)
  (h0 := fun _ _ => rfl)

/-- C111 is false for bfloat16 replicas of which one uses AVX-512: 128 elements refreshed from uint4 codes 3 with zero point 3 and scale 0.1f are the word 0xB200 on one replica and 0 on
the other. -/
theorem C111_false_bf16 :
    Replay .bf16 128 64 [(⟨.uint4, Ex.tenth, 3, .set, fun _ => 3⟩, ⟨⟨.avx512f, 1, .none⟩, Ex.buf (List.replicate 64 0x33)⟩)] Ex.old (fun m => u16At m 64 = 0xB200) ∧
    Replay .bf16 128 64 [(⟨.uint4, Ex.tenth, 3, .set, fun _ => 3⟩, ⟨⟨.portable, 1, .none⟩, Ex.buf (List.replicate 64 0x33)⟩)] Ex.old (fun m => u16At m 64 = 0) :=
  C70_false_avx512_bf16

/-- C111 is false for float32 replicas in a build that contracts only the scalar sums (Clang): sixteen codes 3 with scale 0.1f added to `-fl(0.3)` give 0.0 on a NEON replica with
one worker and a nonzero float on one with two. -/
theorem C111_false_partial_contraction :
    Replay .f32 16 64 [(⟨.uint8, Ex.tenth, 0, .add, fun _ => 3⟩, ⟨⟨.neon, 1, clang⟩, threes⟩)] minusThird (fun m => f32At m 64 = f0) ∧
    Replay .f32 16 64 [(⟨.uint8, Ex.tenth, 0, .add, fun _ => 3⟩, ⟨⟨.neon, 2, clang⟩, threes⟩)] minusThird (fun m => f32At m 64 = ⟨true, 0x32000000⟩) :=
  C70_false_partial_contraction

/-! ## C112: closed-loop delta coding -/

/-- One round: the sender's new tensor; how the difference to the shared copy is quantized (context, address, old memory) and added to the copy (context, size of the receive buffer). -/
structure Delta where
  w : Nat → F32
  dt : DType
  s : F32
  z : ℤ
  mode : RoundMode
  τ : F32
  c : Ctx
  o : Nat
  mem : Mem
  c' : Ctx
  sz : Nat

/-- The contribution of a round: the difference `y`. -/
def Delta.peer (h : Delta) (y : InBuf) : Peer := ⟨.f32, y, h.dt, h.s, h.z, h.mode, h.τ, h.c, h.o, h.mem, h.c', h.sz⟩

/-- After every schedule of the calls of each round: `y` is a buffer with the float32 differences of the new tensor and the copy (at `out`); it is quantized, and the codes are
added to the copy. -/
def Track (n out : Nat) : List Delta → Mem → (Mem → Prop) → Prop
  | [], m, Q => Q m
  | h :: l, m, Q =>
    ∀ y : InBuf, y.size = 4 * n → (∀ i, i < n → elem .f32 y.data 0 i = Flt.sub (h.w i) (f32At m (out + 4 * i))) →
      Always NoFault (quantize h.c y .f32 h.o (bytes h.dt.bits n) h.dt h.s h.z h.mode h.τ) (span h.o (bytes h.dt.bits n)) h.mem (fun mq =>
        Always NoFault (dequantize h.c' ⟨h.sz, fun a => mq (h.o + a)⟩ (bytes h.dt.bits n) h.dt out (4 * n) .f32 h.s h.z .add) (span out (4 * n)) m
          (fun m' => Track n out l m' Q))

/-- Bound on the distance of the copy from the sender's last tensor: `B` bounds the tensors, `δ` the change from one tensor to the next, `E` the quantization error of a round. -/
def apartBy (B δ E : ℚ) : ℚ := E * (1 + 1 / 2 ^ 20) + (B + δ) / 2 ^ 22 + 1 / 2 ^ 146

/-- Bound on the differences that are quantized. -/
def diffBy (B δ E : ℚ) : ℚ := (δ + apartBy B δ E) * (1 + 1 / 2 ^ 24) + 1 / 2 ^ 150

/-- A legal round. -/
structure Delta.Ok (h : Delta) (n : Nat) (B δ E : ℚ) : Prop where
  quant : h.dt.isQuant = true
  send : Sizes n h.c.threads
  recv : Sizes n h.c'.threads
  lo : 1 / 2 ^ 126 ≤ h.s.toRat
  hi : h.s.toRat ≤ 2 ^ 119
  zp : 0 ≤ h.z ∧ h.z ≤ 2 ^ h.dt.bits - 1
  thr : Threshold h.mode h.τ
  size : bytes h.dt.bits n ≤ h.sz
  rd : Readable h.dt .f32 n h.sz
  tail : h.dt = .uint2 → n % 4 = 0
  err : h.s.toRat * (tol h.mode + 1 / 2 ^ 12) ≤ E
  below : (0 - h.z) * h.s.toRat ≤ -diffBy B δ E
  above : diffBy B δ E ≤ (2 ^ h.dt.bits - 1 - h.z) * h.s.toRat
  data : ∀ i, i < n → (h.w i).isFin = true ∧ |(h.w i).toRat| ≤ B

/-- Every tensor differs from the one before (the first from `v`) by at most `δ`. -/
def Slow (n : Nat) (δ : ℚ) : (Nat → ℚ) → List Delta → Prop
  | _, [] => True
  | v, h :: l => (∀ i, i < n → |(h.w i).toRat - v i| ≤ δ) ∧ Slow n δ (fun i => (h.w i).toRat) l

/-- The sender's last tensor. -/
def lastOf (v : Nat → ℚ) : List Delta → Nat → ℚ
  | [] => v
  | h :: l => lastOf (fun i => (h.w i).toRat) l

theorem Delta.Ok.peer {h : Delta} {n : Nat} {B δ E : ℚ} (hk : h.Ok n B δ E) {y : InBuf} (hys : y.size = 4 * n)
    (hy : ∀ i, i < n → (elem .f32 y.data 0 i).isFin = true ∧ |(elem .f32 y.data 0 i).toRat| ≤ diffBy B δ E) : (h.peer y).Ok n where
  args := ⟨rfl, hk.quant, hys, hk.send⟩
  recv := hk.recv
  fin := fun i hi => (hy i hi).1
  lo := hk.lo
  hi := hk.hi
  thr := hk.thr
  suits := Or.inl ⟨hk.zp, fun i hi => by
    have := abs_le.mp (hy i hi).2
    have h1 := hk.below
    have h2 := hk.above
    have e1 : ((0 - h.z : ℤ) : ℚ) = 0 - (h.z : ℚ) := by push_cast; rfl
    have e2 : ((2 ^ h.dt.bits - 1 - h.z : ℤ) : ℚ) = 2 ^ h.dt.bits - 1 - (h.z : ℚ) := by push_cast; rfl
    constructor
    · show ((0 - h.z : ℤ) : ℚ) * h.s.toRat ≤ (elem .f32 y.data 0 i).toRat
      rw [e1]; linarith
    · show (elem .f32 y.data 0 i).toRat ≤ ((2 ^ h.dt.bits - 1 - h.z : ℤ) : ℚ) * h.s.toRat
      rw [e2]; linarith⟩
  size := hk.size
  rd := hk.rd
  tail := hk.tail

theorem Track.mono {n out : Nat} {l : List Delta} : ∀ {m : Mem} {Q Q' : Mem → Prop}, (∀ m, Q m → Q' m) → Track n out l m Q → Track n out l m Q' := by
  induction l with
  | nil => exact fun h hq => h _ hq
  | cons g l ih =>
    intro m Q Q' hQ hc y hy1 hy2
    exact Always.mono (hc y hy1 hy2) (fun _ h => h) (fun _ hm => Always.mono hm (fun _ h => h) (fun _ hm' => ih hQ hm'))

/-- C112. Closed-loop delta coding: in every round the sender quantizes the difference between its new tensor and the shared copy, and the copy is updated with dequantize(ADD).  If each
tensor differs from the last by at most `δ` and every round can represent differences of that size plus the remaining error, then after any number of rounds the copy is within one
round's quantization error `E` of the sender's last tensor, up to 2^-20 of it and float32 rounding: errors do not add up. -/
theorem C112_delta_tracking (l : List Delta) {n out : Nat} {m0 : Mem} {v : Nat → ℚ} {B δ E : ℚ} (hB : 0 ≤ B) (hδ : 0 ≤ δ) (hE : 0 ≤ E) (hmax : B + diffBy B δ E + E ≤ 2 ^ 127)
    (h : ∀ h ∈ l, h.Ok n B δ E) (hv : Slow n δ v l)
    (h0 : ∀ i, i < n → (f32At m0 (out + 4 * i)).isFin = true ∧ |(f32At m0 (out + 4 * i)).toRat - v i| ≤ apartBy B δ E) :
    Track n out l m0 (fun m => ∀ i, i < n → (f32At m (out + 4 * i)).isFin = true ∧ |(f32At m (out + 4 * i)).toRat - lastOf v l i| ≤ apartBy B δ E) := by
  have hF : 0 ≤ apartBy B δ E := by unfold apartBy; positivity
  induction l generalizing m0 v with
  | nil => exact h0
  | cons g l ih =>
    intro y hys hy
    have hk := h g (List.mem_cons_self ..)
    have hdB : δ + apartBy B δ E ≤ diffBy B δ E := by
      have e : diffBy B δ E - (δ + apartBy B δ E) = (δ + apartBy B δ E) * (1 / 2 ^ 24) + 1 / 2 ^ 150 := by unfold diffBy; ring
      have : 0 ≤ (δ + apartBy B δ E) * (1 / 2 ^ 24) + 1 / 2 ^ 150 := by positivity
      linarith
    have hy2 : ∀ i, i < n → (elem .f32 y.data 0 i).isFin = true ∧
        |(elem .f32 y.data 0 i).toRat - ((g.w i).toRat - (f32At m0 (out + 4 * i)).toRat)| ≤ (δ + apartBy B δ E) / 2 ^ 24 + 1 / 2 ^ 150 ∧
        |(elem .f32 y.data 0 i).toRat| ≤ diffBy B δ E := fun i hi => by
      obtain ⟨d1, d2⟩ := hk.data i hi
      obtain ⟨r1, r2⟩ := h0 i hi
      have d3 := hv.1 i hi
      have hq : |(g.w i).toRat - (f32At m0 (out + 4 * i)).toRat| ≤ δ + apartBy B δ E := by
        rw [abs_le] at r2 d3 ⊢
        constructor <;> linarith [r2.1, r2.2, d3.1, d3.2]
      obtain ⟨g1, g2⟩ := sub_err d1 r1 hq (by linarith)
      rw [hy i hi]
      refine ⟨g1, g2, ?_⟩
      have := abs_add_le ((Flt.sub (g.w i) (f32At m0 (out + 4 * i))).toRat - ((g.w i).toRat - (f32At m0 (out + 4 * i)).toRat)) ((g.w i).toRat - (f32At m0 (out + 4 * i)).toRat)
      rw [sub_add_cancel] at this
      have e : diffBy B δ E = (δ + apartBy B δ E) / 2 ^ 24 + 1 / 2 ^ 150 + (δ + apartBy B δ E) := by unfold diffBy; ring
      linarith
    have hp := hk.peer hys (fun i hi => ⟨(hy2 i hi).1, (hy2 i hi).2.2⟩)
    have hsmall : ∀ i, i < n → |(f32At m0 (out + 4 * i)).toRat + (elem .f32 y.data 0 i).toRat| ≤ B + (δ + apartBy B δ E) / 2 ^ 24 + 1 / 2 ^ 150 := fun i hi => by
      obtain ⟨_, y2, _⟩ := hy2 i hi
      obtain ⟨_, d2⟩ := hk.data i hi
      rw [abs_le] at y2 d2 ⊢
      constructor <;> linarith [y2.1, y2.2, d2.1, d2.2]
    have herr : (g.peer y).err ≤ E := hk.err
    have hdt : diffBy B δ E = (δ + apartBy B δ E) + ((δ + apartBy B δ E) / 2 ^ 24 + 1 / 2 ^ 150) := by unfold diffBy; ring
    refine peer_step hp (fun i hi => (h0 i hi).1) (fun i hi => ?_) (fun m' hm' => ?_)
    · have := hsmall i hi
      show |(f32At m0 (out + 4 * i)).toRat + (elem .f32 y.data 0 i).toRat| + (g.peer y).err ≤ 2 ^ 127
      linarith
    · refine ih (m0 := m') (v := fun i => (g.w i).toRat) (fun k hk => h k (List.mem_cons_of_mem _ hk)) hv.2 (fun i hi => ?_)
      obtain ⟨k1, k2⟩ := hm' i hi
      refine ⟨k1, ?_⟩
      have k2 : |(f32At m' (out + 4 * i)).toRat - ((f32At m0 (out + 4 * i)).toRat + (elem .f32 y.data 0 i).toRat)| ≤
        (g.peer y).err + (|(f32At m0 (out + 4 * i)).toRat + (elem .f32 y.data 0 i).toRat| + (g.peer y).err) / 2 ^ 24 + 1 / 2 ^ 150 := k2
      obtain ⟨_, y2, _⟩ := hy2 i hi
      have hs := hsmall i hi
      have t1 : (|(f32At m0 (out + 4 * i)).toRat + (elem .f32 y.data 0 i).toRat| + (g.peer y).err) / 2 ^ 24 ≤ (B + (δ + apartBy B δ E) / 2 ^ 24 + 1 / 2 ^ 150 + E) / 2 ^ 24 :=
        div_le_div_of_nonneg_right (by linarith) (by positivity)
      have t2 : E + (B + (δ + apartBy B δ E) / 2 ^ 24 + 1 / 2 ^ 150 + E) / 2 ^ 24 + 1 / 2 ^ 150 + ((δ + apartBy B δ E) / 2 ^ 24 + 1 / 2 ^ 150) ≤ apartBy B δ E := by
        unfold apartBy; norm_num; linarith
      have t3 := abs_add_le ((f32At m' (out + 4 * i)).toRat - ((f32At m0 (out + 4 * i)).toRat + (elem .f32 y.data 0 i).toRat))
        ((elem .f32 y.data 0 i).toRat - ((g.w i).toRat - (f32At m0 (out + 4 * i)).toRat))
      rw [show (f32At m' (out + 4 * i)).toRat - ((f32At m0 (out + 4 * i)).toRat + (elem .f32 y.data 0 i).toRat) +
        ((elem .f32 y.data 0 i).toRat - ((g.w i).toRat - (f32At m0 (out + 4 * i)).toRat)) = (f32At m' (out + 4 * i)).toRat - (g.w i).toRat by ring] at t3
      linarith

/-- Two rounds with the same tensor: uint8 with scale 1 and zero point 120 (nearest), uint4 with scale 15 and zero point 7 (stochastic). -/
def exDeltas : List Delta :=
  [⟨exData, .uint8, f1, 120, .nearest, f0, ⟨.avx2, 3, .none⟩, 64, fun _ => 0, ⟨.portable, 2, .none⟩, 5⟩,
   ⟨exData, .uint4, ⟨false, 0x41700000⟩, 7, .stochastic, Ex.quarter, ⟨.sse42, 2, .none⟩, 64, fun _ => 1, ⟨.avx512f, 4, .none⟩, 5⟩]

theorem exDeltas_ok : ∀ h ∈ exDeltas, h.Ok 5 100 85 16 := by
  intro p hp
  simp only [exDeltas, List.mem_cons, List.not_mem_nil, or_false] at hp
  rcases hp with rfl | rfl
  · exact ⟨rfl, sz 5 3, sz 5 2, by decide +kernel, by decide +kernel, by decide, (fun h => by cases h), by decide, (fun h => by cases h), (fun h => by cases h), by decide +kernel,
      by decide +kernel, by decide +kernel, by decide +kernel⟩
  · exact ⟨rfl, sz 5 2, sz 5 4, by decide +kernel, by decide +kernel, by decide, (fun _ => by decide +kernel), by decide, (fun h => by cases h), (fun h => by cases h), by decide +kernel,
      by decide +kernel, by decide +kernel, by decide +kernel⟩

/-- An output buffer of zeros. -/
def zeros : Mem := fun _ => 0

/-- `C112_delta_tracking` applied to a concrete case: a copy that starts at zero follows 1, -2.5, 0.3, 7.75, 100 (`v` is within `apartBy` of zero and within 85 of the tensor). -/
example := C112_delta_tracking exDeltas (n := 5) (out := 3000) (m0 := zeros) (v := fun i => if i = 4 then 15 else 0) (B := 100) (δ := 85) (E := 16) (hB := by norm_num) (hδ := by norm_num)
  (hE := by norm_num) (hmax := by decide +kernel) (h := exDeltas_ok) (hv := ⟨by decide +kernel, by decide +kernel, trivial⟩) (h0 := by decide +kernel)

end Verif.Props
