import Verif.Props.Transcode
import Verif.Proofs.Accum

/-!
# Error feedback: C110

In every round the sender adds the residual of the last round to its new tensor, quantizes the sum, transmits the codes, and keeps what was lost as the new residual.
-/

namespace Verif.Props
open Spec

/-- One round: the new tensor's elements, and the quantize/dequantize pair. -/
structure Round extends Stage where
  x : Nat → F32

/-- After every schedule of the calls of each round.  `r` is the residual, `sent` the sum of what was transmitted so far; `y` is the buffer with the float32 sums of new tensor and
residual, the new residual is the float32 difference of `y` and the dequantized codes. -/
def Feedback (n : Nat) : List Round → (Nat → F32) → (Nat → ℚ) → ((Nat → F32) → (Nat → ℚ) → Prop) → Prop
  | [], r, sent, Q => Q r sent
  | h :: l, r, sent, Q =>
    ∀ y : InBuf, y.size = 4 * n → (∀ i, i < n → elem .f32 y.data 0 i = Flt.add (h.x i) (r i)) →
      Always NoFault (quantize h.c y .f32 h.o (bytes h.dt.bits n) h.dt h.s h.z h.mode h.τ) (span h.o (bytes h.dt.bits n)) h.mem (fun mq =>
        Always NoFault (dequantize h.c' ⟨h.sz, fun a => mq (h.o + a)⟩ (bytes h.dt.bits n) h.dt h.o' (4 * n) .f32 h.s h.z .set) (span h.o' (4 * n)) h.mem'
          (fun m' => Feedback n l (fun i => Flt.sub (elem .f32 y.data 0 i) (f32At m' (h.o' + 4 * i))) (fun i => sent i + (f32At m' (h.o' + 4 * i)).toRat) Q))

/-- Every float32 tensor has a buffer, so the quantification over `y` in `Feedback` is not empty. -/
theorem exists_buffer (n : Nat) (v : Nat → F32) (hv : ∀ i, i < n → (v i).Valid) : ∃ y : InBuf, y.size = 4 * n ∧ ∀ i, i < n → elem .f32 y.data 0 i = v i := by
  refine ⟨⟨4 * n, fun a => byteOf (v (a / 4)).toBits (a % 4)⟩, rfl, fun i hi => ?_⟩
  show f32At (fun a => byteOf (v (a / 4)).toBits (a % 4)) (0 + 4 * i) = v i
  rw [f32At_of_bytes (v := (v i).toBits) (toBits_lt (hv i hi)) (fun k hk => ?_), ofBits_toBits (hv i hi)]
  show byteOf (v ((0 + 4 * i + k) / 4)).toBits ((0 + 4 * i + k) % 4) = _
  rw [show (0 + 4 * i + k) / 4 = i by omega, show (0 + 4 * i + k) % 4 = k by omega]

/-- `exists_buffer` for the sums a round quantizes. -/
theorem exists_sums (n : Nat) (x r : Nat → F32) : ∃ y : InBuf, y.size = 4 * n ∧ ∀ i, i < n → elem .f32 y.data 0 i = Flt.add (x i) (r i) :=
  exists_buffer n _ (fun _ _ => valid_add _ _)

/-- Bound on the residual, for rounds with quantization error at most `E`. -/
def resid (E : ℚ) : ℚ := E * (1 + 1 / 2 ^ 24) + 1 / 2 ^ 150

/-- Bound on the sum of new tensor (elements up to `B`) and residual. -/
def total (B E : ℚ) : ℚ := (B + resid E) * (1 + 1 / 2 ^ 24) + 1 / 2 ^ 150

/-- What one round can lose in the caller's own float32 addition and subtraction. -/
def noise (B E : ℚ) : ℚ := (B + resid E + E) / 2 ^ 24 + 1 / 2 ^ 149

/-- A legal round: elements up to `B`, quantization error at most `E`, and a representable interval that contains everything up to `total B E`. -/
structure Round.Ok (h : Round) (n : Nat) (B E : ℚ) : Prop where
  stage : h.toStage.Ok n (total B E)
  err : h.err ≤ E
  below : (0 - h.z) * h.s.toRat ≤ -total B E
  above : total B E ≤ (2 ^ h.dt.bits - 1 - h.z) * h.s.toRat
  data : ∀ i, i < n → (h.x i).isFin = true ∧ |(h.x i).toRat| ≤ B

theorem add_err {a b : F32} {q : ℚ} (ha : a.isFin = true) (hb : b.isFin = true) (hq : |a.toRat + b.toRat| ≤ q) (h : q ≤ 2 ^ 127) :
    (Flt.add a b).isFin = true ∧ |(Flt.add a b).toRat - (a.toRat + b.toRat)| ≤ q / 2 ^ 24 + 1 / 2 ^ 150 := by
  obtain ⟨h1, h2⟩ := flr_sum (hq.trans h)
  rw [← add_toRat ha hb] at h1 h2
  refine ⟨isFin_of_abs h2, h1.trans ?_⟩
  have : |a.toRat + b.toRat| / 2 ^ 24 ≤ q / 2 ^ 24 := div_le_div_of_nonneg_right hq (by positivity)
  linarith

theorem sub_err {a b : F32} {q : ℚ} (ha : a.isFin = true) (hb : b.isFin = true) (hq : |a.toRat - b.toRat| ≤ q) (h : q ≤ 2 ^ 127) :
    (Flt.sub a b).isFin = true ∧ |(Flt.sub a b).toRat - (a.toRat - b.toRat)| ≤ q / 2 ^ 24 + 1 / 2 ^ 150 := by
  obtain ⟨h1, h2⟩ := flr_sum (hq.trans h)
  rw [← sub_toRat ha hb] at h1 h2
  refine ⟨isFin_of_abs h2, h1.trans ?_⟩
  have : |a.toRat - b.toRat| / 2 ^ 24 ≤ q / 2 ^ 24 := div_le_div_of_nonneg_right hq (by positivity)
  linarith

theorem feedback_core {n : Nat} {B E : ℚ} (hB : 0 ≤ B) (hE : 0 ≤ E) (hBE : total B E ≤ 2 ^ 127) : ∀ (l : List Round) {r : Nat → F32} {sent T : Nat → ℚ} {N : ℚ},
    (∀ h ∈ l, h.Ok n B E) → (∀ i, i < n → (r i).isFin = true ∧ |(r i).toRat| ≤ resid E ∧ |sent i + (r i).toRat - T i| ≤ N) →
    Feedback n l r sent (fun r' sent' => ∀ i, i < n → (r' i).isFin = true ∧ |(r' i).toRat| ≤ resid E ∧
      |sent' i + (r' i).toRat - (T i + (l.map (fun h => (h.x i).toRat)).sum)| ≤ N + l.length * noise B E) := by
  have hres : 0 ≤ resid E := by unfold resid; positivity
  have hBr : B + resid E ≤ total B E := by
    have : total B E - (B + resid E) = (B + resid E) * (1 / 2 ^ 24) + 1 / 2 ^ 150 := by unfold total; ring
    have h2 : 0 ≤ (B + resid E) * (1 / 2 ^ 24) + 1 / 2 ^ 150 := by positivity
    linarith
  have hE127 : E ≤ 2 ^ 127 := by
    have : E ≤ resid E := by
      have : resid E - E = E * (1 / 2 ^ 24) + 1 / 2 ^ 150 := by unfold resid; ring
      have h2 : 0 ≤ E * (1 / 2 ^ 24) + 1 / 2 ^ 150 := by positivity
      linarith
    linarith
  intro l
  induction l with
  | nil =>
    intro r sent T N _ hr i hi
    simpa using hr i hi
  | cons h l ih =>
    intro r sent T N hok hr y hys hy
    have hk := hok h (List.mem_cons_self ..)
    have hs : 0 < h.s.toRat := lt_of_lt_of_le (by positivity) hk.stage.lo
    have hy2 : ∀ i, i < n → (elem .f32 y.data 0 i).isFin = true ∧ |(elem .f32 y.data 0 i).toRat - ((h.x i).toRat + (r i).toRat)| ≤ (B + resid E) / 2 ^ 24 + 1 / 2 ^ 150 ∧
        |(elem .f32 y.data 0 i).toRat| ≤ total B E := fun i hi => by
      obtain ⟨d1, d2⟩ := hk.data i hi
      obtain ⟨r1, r2, _⟩ := hr i hi
      have hq : |(h.x i).toRat + (r i).toRat| ≤ B + resid E := (abs_add_le _ _).trans (by linarith)
      obtain ⟨g1, g2⟩ := add_err d1 r1 hq (by linarith)
      rw [hy i hi]
      refine ⟨g1, g2, ?_⟩
      have : |(Flt.add (h.x i) (r i)).toRat| ≤ |(Flt.add (h.x i) (r i)).toRat - ((h.x i).toRat + (r i).toRat)| + |(h.x i).toRat + (r i).toRat| := by
        have := abs_add_le ((Flt.add (h.x i) (r i)).toRat - ((h.x i).toRat + (r i).toRat)) ((h.x i).toRat + (r i).toRat)
        rwa [sub_add_cancel] at this
      have e : total B E = (B + resid E) / 2 ^ 24 + 1 / 2 ^ 150 + (B + resid E) := by unfold total; ring
      linarith
    have key := C106_clipped_roundtrip (ft := .f32) (c := h.c) (c' := h.c') (x := y) (n := n) (o := h.o) (o' := h.o') (m0 := h.mem) (m0' := h.mem')
      (s := h.s) (z := h.z) (τ := h.τ) (mode := h.mode) (dt := h.dt) ⟨rfl, hk.stage.quant, hys, hk.stage.send⟩ hk.stage.recv (fun i hi => (hy2 i hi).1) hk.stage.zp hk.stage.lo hk.stage.hi
      (fun i hi => (hy2 i hi).2.2.trans hk.stage.big) hk.stage.thr
    refine key.mono (fun _ h => h) (fun m hm => (hm h.sz hk.stage.size hk.stage.rd).mono (fun _ h => h) (fun m' hm' => ?_))
    have hc := ih (r := fun i => Flt.sub (elem .f32 y.data 0 i) (f32At m' (h.o' + 4 * i))) (sent := fun i => sent i + (f32At m' (h.o' + 4 * i)).toRat)
      (T := fun i => T i + (h.x i).toRat) (N := N + noise B E) (fun g hg => hok g (List.mem_cons_of_mem _ hg)) (fun i hi => by
        obtain ⟨y1, y2, y3⟩ := hy2 i hi
        obtain ⟨_, _, r3⟩ := hr i hi
        obtain ⟨k1, k2⟩ := hm' i hi
        have ec : clip ((0 - h.z) * h.s.toRat) ((2 ^ h.dt.bits - 1 - h.z) * h.s.toRat) (elem .f32 y.data 0 i).toRat = (elem .f32 y.data 0 i).toRat := by
          have := abs_le.mp y3
          have h1 := hk.below
          have h2 := hk.above
          unfold clip
          rw [min_eq_right (by linarith), max_eq_right (by linarith)]
        have k3 : |(f32At m' (h.o' + 4 * i)).toRat - (elem .f32 y.data 0 i).toRat| ≤ E := by
          rw [← ec]
          exact k2.trans hk.err
        rw [abs_sub_comm] at k3
        obtain ⟨s1, s2⟩ := sub_err y1 k1 k3 hE127
        refine ⟨s1, ?_, ?_⟩
        · have := abs_add_le ((Flt.sub (elem .f32 y.data 0 i) (f32At m' (h.o' + 4 * i))).toRat - ((elem .f32 y.data 0 i).toRat - (f32At m' (h.o' + 4 * i)).toRat))
            ((elem .f32 y.data 0 i).toRat - (f32At m' (h.o' + 4 * i)).toRat)
          rw [sub_add_cancel] at this
          have e : resid E = E / 2 ^ 24 + 1 / 2 ^ 150 + E := by unfold resid; ring
          linarith
        · have e : noise B E = (B + resid E) / 2 ^ 24 + 1 / 2 ^ 150 + (E / 2 ^ 24 + 1 / 2 ^ 150) := by unfold noise; ring
          rw [e]
          rw [abs_le] at y2 r3 s2 ⊢
          constructor <;> linarith [y2.1, y2.2, r3.1, r3.2, s2.1, s2.2])
    have e : ∀ i, T i + ((h :: l).map (fun h => (h.x i).toRat)).sum = T i + (h.x i).toRat + (l.map (fun h => (h.x i).toRat)).sum := fun i => by
      rw [List.map_cons, List.sum_cons]; ring
    have e2 : N + ((h :: l).length : ℚ) * noise B E = N + noise B E + l.length * noise B E := by rw [List.length_cons]; push_cast; ring
    simp only [e, e2]
    exact hc

/-- C110. Any number of rounds with error feedback, each with its own type, parameters (error at most `E`, range large enough), mode, CPU and thread count: after all of them the residual is at
most `E` (up to 2^-24 of it), and the sum of everything transmitted is the sum of all tensors plus the first residual minus the last one, up to the float32 rounding of the caller's own two
operations per round. -/
theorem C110_error_feedback (l : List Round) {n : Nat} {B E : ℚ} {r : Nat → F32} (hB : 0 ≤ B) (hE : 0 ≤ E) (hBE : total B E ≤ 2 ^ 127) (h : ∀ h ∈ l, h.Ok n B E)
    (hr : ∀ i, i < n → (r i).isFin = true ∧ |(r i).toRat| ≤ resid E) :
    Feedback n l r (fun _ => 0) (fun r' sent => ∀ i, i < n → (r' i).isFin = true ∧ |(r' i).toRat| ≤ resid E ∧
      |sent i - ((l.map (fun h => (h.x i).toRat)).sum + (r i).toRat - (r' i).toRat)| ≤ l.length * noise B E) := by
  have key := feedback_core (n := n) hB hE hBE l (r := r) (sent := fun _ => 0) (T := fun i => (r i).toRat) (N := 0) h
    (fun i hi => ⟨(hr i hi).1, (hr i hi).2, by rw [zero_add, sub_self, abs_zero]⟩)
  have hmono : ∀ {l : List Round} {r : Nat → F32} {sent : Nat → ℚ} {Q Q' : (Nat → F32) → (Nat → ℚ) → Prop}, (∀ r s, Q r s → Q' r s) → Feedback n l r sent Q → Feedback n l r sent Q' := by
    intro l
    induction l with
    | nil => exact fun h hq => h _ _ hq
    | cons g l ih =>
      intro r sent Q Q' hQ hc y hy1 hy2
      exact (hc y hy1 hy2).mono (fun _ h => h) (fun _ hm => Always.mono hm (fun _ h => h) (fun _ hm' => ih hQ hm'))
  refine hmono (fun r' s hs i hi => ?_) key
  obtain ⟨h1, h2, h3⟩ := hs i hi
  refine ⟨h1, h2, ?_⟩
  rw [zero_add] at h3
  rwa [show s i - ((l.map (fun h => (h.x i).toRat)).sum + (r i).toRat - (r' i).toRat) = s i + (r' i).toRat - ((r i).toRat + (l.map (fun h => (h.x i).toRat)).sum) by ring]

/-- The elements of 1, -2.5, 0.3, 7.75, 100. -/
def exData (i : Nat) : F32 := elem .f32 Ex.xs.data 0 i

/-- Two rounds: uint8 with scale 1 and zero point 120 (nearest), uint4 with scale 18 and zero point 7 (stochastic). -/
def exRounds : List Round :=
  [⟨⟨.uint8, f1, 120, .nearest, f0, ⟨.avx2, 3, .none⟩, 64, fun _ => 0, ⟨.portable, 2, .none⟩, 5, 200, fun _ => 7⟩, exData⟩,
   ⟨⟨.uint4, ⟨false, 0x41900000⟩, 7, .stochastic, Ex.quarter, ⟨.sse42, 2, .none⟩, 64, fun _ => 1, ⟨.avx512f, 4, .none⟩, 5, 300, fun _ => 9⟩, exData⟩]

theorem exRounds_ok : ∀ h ∈ exRounds, h.Ok 5 100 19 := by
  intro p hp
  simp only [exRounds, List.mem_cons, List.not_mem_nil, or_false] at hp
  rcases hp with rfl | rfl
  · exact ⟨⟨rfl, sz 5 3, sz 5 2, by decide +kernel, by decide +kernel, by decide, (fun h => by cases h), by decide, (fun h => by cases h), by decide +kernel⟩, by decide +kernel, by decide +kernel,
      by decide +kernel, by decide +kernel⟩
  · exact ⟨⟨rfl, sz 5 2, sz 5 4, by decide +kernel, by decide +kernel, by decide, (fun _ => by decide +kernel), by decide, (fun h => by cases h), by decide +kernel⟩, by decide +kernel, by decide +kernel,
      by decide +kernel, by decide +kernel⟩

/-- `C110_error_feedback` applied to a concrete case. -/
example := C110_error_feedback exRounds (n := 5) (B := 100) (E := 19) (r := fun _ => f0) (hB := by norm_num) (hE := by norm_num) (hBE := by decide +kernel) (h := exRounds_ok)
    (hr := by decide +kernel)

end Verif.Props
