import Verif.Props.Ring
import Verif.Props.Pipeline

/-!
# All-reduce with parameters computed at every hop: C102

As C100, but no scale or zero point is chosen: every sender computes them from the partial sum it holds.
-/

namespace Verif.Props
open Spec

variable {n out : Nat} {m0 : Mem}

/-- One hop: integer type, rounding mode and threshold; the sender's context, the split of its data in the parameter
computation, and where it puts the codes; the receiver's context, the readable size of its receive buffer, and its memory, which holds its
own tensor at `out`. -/
structure AutoHop where
  dt : DType
  mode : RoundMode
  τ : F32
  c : Ctx
  blocks : List (Nat × Nat)
  o : Nat
  mem : Mem
  c' : Ctx
  sz : Nat
  own : Mem

/-- Element `i` of the receiver's own tensor. -/
def AutoHop.val (out : Nat) (h : AutoHop) (i : Nat) : ℚ := (f32At h.own (out + 4 * i)).toRat

/-- The floats at `out` in memory `m`. -/
def held (n out : Nat) (m : Mem) : InBuf := ⟨4 * n, fun a => m (out + a)⟩

/-- At every hop: the parameter computation on the partial sum returns some scale `s` and zero point `z`; after every schedule of
the quantize call with them, and of the receiver's dequantize(ADD) call with them into its own tensor, the next hop follows.  `Q`
holds of the last receiver's memory. -/
def AutoRing (n out : Nat) : List AutoHop → Mem → (Mem → Prop) → Prop
  | [], m, Q => Q m
  | h :: l, m, Q =>
    ∃ s z, computeQuantConfigFromData h.c.isa .f32 (held n out m) h.blocks h.dt = .ret (s, z) ∧
      Always NoFault (quantize h.c (held n out m) .f32 h.o (bytes h.dt.bits n) h.dt s z h.mode h.τ) (span h.o (bytes h.dt.bits n)) h.mem (fun mq =>
        Always NoFault (dequantize h.c' ⟨h.sz, fun a => mq (h.o + a)⟩ (bytes h.dt.bits n) h.dt out (4 * n) .f32 s z .add) (span out (4 * n)) h.own
          (fun m' => AutoRing n out l m' Q))

/-- A legal hop whose relative quantization error, two ranges of `(tol + 2^-11)` steps out of `2^bits - 1`, is at most `κ`, and whose
receiver's tensor is finite.  On SSE4.2 the blocks of the search must be small (C22).  For uint2 the element count must be a multiple of
four (C10) and one byte behind the receive buffer readable (C11). -/
structure AutoHop.Ok (h : AutoHop) (n out : Nat) (κ : ℚ) : Prop where
  quant : h.dt.isQuant = true
  split : Split n 0 h.blocks
  small : SseSmall h.c.isa .f32 h.blocks
  send : Sizes n h.c.threads
  recv : Sizes n h.c'.threads
  thr : Threshold h.mode h.τ
  rel : 2 * (tol h.mode + 1 / 2 ^ 11) / (2 ^ h.dt.bits - 1) ≤ κ
  size : bytes h.dt.bits n ≤ h.sz
  rd : Readable h.dt .f32 n h.sz
  tail : h.dt = .uint2 → n % 4 = 0
  fin : ∀ i, i < n → (f32At h.own (out + 4 * i)).isFin = true

/-- The values have both signs: one is at most `-M`, one at least `M`. -/
def Straddles (n : Nat) (M : ℚ) (v : Nat → ℚ) : Prop := (∃ i, i < n ∧ v i ≤ -M) ∧ (∃ i, i < n ∧ M ≤ v i)

theorem AutoRing.mono {l : List AutoHop} : ∀ {m : Mem} {Q Q' : Mem → Prop}, (∀ m, Q m → Q' m) → AutoRing n out l m Q → AutoRing n out l m Q' := by
  induction l with
  | nil => intro m Q Q' hQ h; exact hQ _ h
  | cons p l ih =>
    rintro m Q Q' hQ ⟨s, z, e, h⟩
    exact ⟨s, z, e, Always.mono h (fun _ h => h) (fun mq hq => Always.mono hq (fun _ h => h) (fun m' hm' => ih hQ hm'))⟩

theorem held_elem (m : Mem) (i : Nat) : elem .f32 (held n out m).data 0 i = f32At m (out + 4 * i) := by
  show f32At (fun a => m (out + a)) (0 + 4 * i) = _
  rw [f32At_shift, Nat.zero_add]

/-- The sender of a hop as a peer of a reduction. -/
def AutoHop.peer (n out : Nat) (h : AutoHop) (m : Mem) (s : F32) (z : ℤ) : Peer :=
  ⟨.f32, held n out m, h.dt, s, z, h.mode, h.τ, h.c, h.o, h.mem, h.c', h.sz⟩

/-- A partial sum within `D` of `T`, which straddles zero by more than `D`: the sender's parameter computation returns parameters that suit
the data, with an error of at most `κ (B + D)`. -/
theorem AutoHop.Ok.params {h : AutoHop} {κ : ℚ} (hk : h.Ok n out κ) {m : Mem} {T : Nat → ℚ} {D B M : ℚ}
    (hA : ∀ i, i < n → (f32At m (out + 4 * i)).isFin = true ∧ |(f32At m (out + 4 * i)).toRat - T i| ≤ D)
    (hB : ∀ i, i < n → |T i| ≤ B) (hT : Straddles n M T) (hM : D + 1 / 2 ^ 101 ≤ M) (hw : B + D ≤ 2 ^ 99) :
    ∃ s z, computeQuantConfigFromData h.c.isa .f32 (held n out m) h.blocks h.dt = .ret (s, z) ∧ (h.peer n out m s z).Ok n ∧
      (h.peer n out m s z).err ≤ κ * (B + D) := by
  obtain ⟨⟨i0, hi0, t0⟩, ⟨j0, hj0, t1⟩⟩ := hT
  have hn : 0 < n := by omega
  have hp : PArgs .f32 (held n out m) n h.blocks h.dt := ⟨hk.quant, le_refl _, hk.split⟩
  have hs := sees_small hp hn hk.small
  obtain ⟨lo, hi, hr⟩ := range_exists (ft := .f32) (x := held n out m) hn
  have hv : ∀ i, i < n → (elem FT.f32.dtype (held n out m).data 0 i).toRat = (f32At m (out + 4 * i)).toRat := fun i _ => congrArg Flt.toRat (held_elem m i)
  have hfin : AllFin .f32 (held n out m) n := fun i hi => by
    have e : elem FT.f32.dtype (held n out m).data 0 i = f32At m (out + 4 * i) := held_elem m i
    rw [e]; exact (hA i hi).1
  have hr' := hr
  obtain ⟨⟨⟨a, ha, ea⟩, hlo⟩, ⟨b, hb, eb⟩, hhi⟩ := hr'
  have l1 : lo ≤ -(1 / 2 ^ 101) := by
    have g := hlo ⟨i0, hi0, rfl⟩
    rw [hv i0 hi0] at g
    have := (abs_le.mp (hA i0 hi0).2).2
    linarith
  have l2 : 1 / 2 ^ 101 ≤ hi := by
    have g := hhi ⟨j0, hj0, rfl⟩
    rw [hv j0 hj0] at g
    have := (abs_le.mp (hA j0 hj0).2).1
    linarith
  have l3 : -(B + D) ≤ lo := by
    rw [ea, hv a ha]
    have h1 := (abs_le.mp (hA a ha).2).1
    have h2 := (abs_le.mp (hB a ha)).1
    linarith
  have l4 : hi ≤ B + D := by
    rw [eb, hv b hb]
    have h1 := (abs_le.mp (hA b hb).2).2
    have h2 := (abs_le.mp (hB b hb)).2
    linarith
  have p101 : (0:ℚ) < 1 / 2 ^ 101 := by positivity
  have har : Around .f32 (held n out m) n lo hi := by
    refine ⟨hfin, hr, ⟨by linarith, by linarith⟩, ?_, ?_⟩
    · have e : (1:ℚ) / 2 ^ 100 = 1 / 2 ^ 101 + 1 / 2 ^ 101 := by norm_num
      linarith
    · have e : (2:ℚ) ^ 100 = 2 ^ 99 + 2 ^ 99 := by norm_num
      linarith
  obtain ⟨s, z, e, _, q1, q2, hst, _⟩ := computed_step hp hs har
  refine ⟨s, z, e, ⟨⟨rfl, hk.quant, rfl, hk.send⟩, hk.recv, hfin, q1, q2, hk.thr, Or.inr ⟨h.c.isa, h.blocks, lo, hi, hp, hn, hs, hr, by linarith, by linarith, e⟩,
    hk.size, hk.rd, hk.tail⟩, ?_⟩
  obtain ⟨_, _, b3⟩ := step_bounds hk.quant har
  have h1 := err_step (mode := h.mode) b3 hst
  show s.toRat * (tol h.mode + 1 / 2 ^ 12) ≤ _
  refine h1.trans ?_
  have hQ := qmax_bounds hk.quant
  have hQ1 : (3:ℚ) ≤ 2 ^ h.dt.bits - 1 := by exact_mod_cast hQ.1
  have ht := half_le_tol (mode := h.mode)
  have hBD : 0 ≤ B + D := by linarith
  calc step h.dt lo hi * (tol h.mode + 1 / 2 ^ 12 + 1 / 2 ^ 22) ≤ step h.dt lo hi * (tol h.mode + 1 / 2 ^ 11) := by
        refine mul_le_mul_of_nonneg_left ?_ b3.le
        have : (1:ℚ) / 2 ^ 12 + 1 / 2 ^ 22 ≤ 1 / 2 ^ 11 := by norm_num
        linarith
    _ = (hi - lo) * ((tol h.mode + 1 / 2 ^ 11) / (2 ^ h.dt.bits - 1)) := by unfold step; ring
    _ ≤ (2 * (B + D)) * ((tol h.mode + 1 / 2 ^ 11) / (2 ^ h.dt.bits - 1)) := by
        refine mul_le_mul_of_nonneg_right (by linarith) (div_nonneg ?_ (by linarith))
        have : (0:ℚ) ≤ 1 / 2 ^ 11 := by positivity
        linarith
    _ = (2 * (tol h.mode + 1 / 2 ^ 11) / (2 ^ h.dt.bits - 1)) * (B + D) := by ring
    _ ≤ _ := mul_le_mul_of_nonneg_right hk.rel hBD

/-- The factor by which error plus magnitude grow per hop. -/
def growth (κ : ℚ) : ℚ := (1 + κ) * (1 + 1 / 2 ^ 23)

theorem one_le_growth {κ : ℚ} (h : 0 ≤ κ) : 1 ≤ growth κ := by
  unfold growth
  have : (1 + κ) * (1 + 1 / 2 ^ 23) = 1 + κ + (1 + κ) * (1 / 2 ^ 23) := by ring
  rw [this]
  have : 0 ≤ (1 + κ) * (1 / 2 ^ 23) := mul_nonneg (by linarith) (by positivity)
  linarith

/-- One hop in rationals. -/
theorem hop_growth {κ D B E t : ℚ} (hκ : 0 ≤ κ) (hD : 0 ≤ D) (hB : 1 / 2 ^ 101 ≤ B) (hE : E ≤ κ * (B + D)) (ht : t ≤ B + D) :
    E + (t + E) / 2 ^ 24 + 1 / 2 ^ 150 + D ≤ growth κ * (D + B) - B := by
  have h1 : (t + E) / 2 ^ 24 ≤ ((B + D) + κ * (B + D)) / 2 ^ 24 := div_le_div_of_nonneg_right (by linarith) (by positivity)
  have h2 : (1:ℚ) / 2 ^ 150 ≤ (B + D) / 2 ^ 24 := by
    rw [le_div_iff₀ (by positivity)]
    have : (1:ℚ) / 2 ^ 150 * 2 ^ 24 ≤ 1 / 2 ^ 101 := by norm_num
    linarith
  have e : growth κ * (D + B) - B = D + κ * (B + D) + (2 * ((B + D) / 2 ^ 24) + κ * (B + D) / 2 ^ 24 + κ * (B + D) / 2 ^ 24) := by unfold growth; ring
  have h3 : 0 ≤ κ * (B + D) / 2 ^ 24 := div_nonneg (mul_nonneg hκ (by linarith [show (0:ℚ) ≤ 1 / 2 ^ 101 by positivity])) (by positivity)
  have e2 : ((B + D) + κ * (B + D)) / 2 ^ 24 = (B + D) / 2 ^ 24 + κ * (B + D) / 2 ^ 24 := by ring
  rw [e]
  linarith

theorem sum_abs_nonneg (l : List AutoHop) (i : Nat) : 0 ≤ (l.map (fun h => |h.val out i|)).sum := List.sum_nonneg (fun v hv => by
  obtain ⟨q, _, rfl⟩ := List.mem_map.mp hv
  exact abs_nonneg _)

/-- Induction over the hops: `T` is the true partial sum, `D` the error so far. -/
theorem auto_core (hops : List AutoHop) {B M κ : ℚ} (hκ : 0 ≤ κ) (hB0 : 1 / 2 ^ 101 ≤ B) : ∀ {m0 : Mem} {T : Nat → ℚ} {D : ℚ}, (∀ h ∈ hops, h.Ok n out κ) → 0 ≤ D →
    (∀ i, i < n → (f32At m0 (out + 4 * i)).isFin = true ∧ |(f32At m0 (out + 4 * i)).toRat - T i| ≤ D) →
    (∀ i, i < n → |T i| + (hops.map (fun h => |h.val out i|)).sum ≤ B) →
    (∀ k, k < hops.length → Straddles n M (fun i => T i + ((hops.take k).map (fun h => h.val out i)).sum)) →
    growth κ ^ hops.length * (D + B) - B + 1 / 2 ^ 101 ≤ M → growth κ ^ hops.length * (D + B) ≤ 2 ^ 99 →
    AutoRing n out hops m0 (fun m => ∀ i, i < n → (f32At m (out + 4 * i)).isFin = true ∧
      |(f32At m (out + 4 * i)).toRat - (T i + (hops.map (fun h => h.val out i)).sum)| ≤ growth κ ^ hops.length * (D + B) - B) := by
  have hg := one_le_growth hκ
  have p101 : (0:ℚ) < 1 / 2 ^ 101 := by positivity
  induction hops with
  | nil =>
    intro m0 T D _ _ hA _ _ _ _ i hi
    simpa using hA i hi
  | cons p l ih =>
    intro m0 T D h hD hA hB hT hM hw
    have hp := h p List.mem_cons_self
    have hl : ∀ q ∈ l, q.Ok n out κ := fun q hq => h q (List.mem_cons_of_mem _ hq)
    simp only [List.length_cons] at hM hw ⊢
    have hgl : 1 ≤ growth κ ^ (l.length + 1) := one_le_pow₀ hg
    have hDB : D + B ≤ growth κ ^ (l.length + 1) * (D + B) := le_mul_of_one_le_left (by linarith) hgl
    have hTB : ∀ i, i < n → |T i| ≤ B ∧ |T i + p.val out i| ≤ B := fun i hi => by
      have h1 := hB i hi
      simp only [List.map_cons, List.sum_cons] at h1
      have h2 := sum_abs_nonneg (out := out) l i
      have h3 := abs_nonneg (p.val out i)
      have h4 := abs_add_le (T i) (p.val out i)
      exact ⟨by linarith, by linarith⟩
    have hT0 : Straddles n M T := by
      have := hT 0 (by simp)
      simpa using this
    obtain ⟨s, z, e, hok, herr⟩ := hp.params hA (fun i hi => (hTB i hi).1) hT0 (by linarith) (by linarith)
    refine ⟨s, z, e, ?_⟩
    have hval : ∀ i, (p.peer n out m0 s z).val i = (f32At m0 (out + 4 * i)).toRat := fun i => congrArg Flt.toRat (held_elem m0 i)
    have hAB : ∀ i, i < n → |p.val out i + (f32At m0 (out + 4 * i)).toRat| ≤ B + D := fun i hi => by
      have h3 : p.val out i + (f32At m0 (out + 4 * i)).toRat = ((f32At m0 (out + 4 * i)).toRat - T i) + (T i + p.val out i) := by ring
      rw [h3]
      refine (abs_add_le _ _).trans ?_
      linarith [(hA i hi).2, (hTB i hi).2]
    have hgr := fun t ht => hop_growth (t := t) hκ hD hB0 herr ht
    set E := (p.peer n out m0 s z).err with hEd
    set D1 := growth κ * (D + B) - B with hD1
    have hD10 : 0 ≤ D1 := by
      have := mul_le_mul_of_nonneg_right hg (show 0 ≤ D + B by linarith)
      rw [hD1]; linarith
    have hEB : B + D + E ≤ 2 ^ 127 := by
      have h1 := hgr (B + D) (le_refl _)
      have h2 : growth κ * (D + B) ≤ growth κ ^ (l.length + 1) * (D + B) := by
        refine mul_le_mul_of_nonneg_right ?_ (by linarith)
        exact le_self_pow₀ hg (by omega)
      have h3 : (0:ℚ) ≤ (B + D + E) / 2 ^ 24 := by
        have := hok.lo
        have hE0 : 0 ≤ E := by
          rw [hEd]; unfold Peer.err
          have h1 : 0 ≤ (p.peer n out m0 s z).s.toRat := le_trans (by positivity) hok.lo
          have h2 := half_le_tol (mode := (p.peer n out m0 s z).mode)
          exact mul_nonneg h1 (by have : (0:ℚ) ≤ 1 / 2 ^ 12 := by positivity
                                  linarith)
        exact div_nonneg (by linarith) (by positivity)
      have h4 : (0:ℚ) ≤ 1 / 2 ^ 150 := by positivity
      have h5 : (2:ℚ) ^ 99 + 2 ^ 99 ≤ 2 ^ 127 := by norm_num
      linarith
    have hpow : growth κ ^ (l.length + 1) * (D + B) = growth κ ^ l.length * (D1 + B) := by rw [hD1, pow_succ]; ring
    rw [hpow] at hM hw ⊢
    refine peer_step (m0 := p.own) hok hp.fin (fun i hi => ?_) (fun m hm => ?_)
    · rw [hval]
      have := hAB i hi
      show |p.val out i + _| + E ≤ _
      linarith
    · refine AutoRing.mono ?_ (ih (m0 := m) (T := fun i => T i + p.val out i) (D := D1) hl hD10 (fun i hi => ⟨(hm i hi).1, ?_⟩) (fun i hi => ?_) (fun k hk => ?_) hM hw)
      · intro m' hm' i hi
        refine ⟨(hm' i hi).1, ?_⟩
        have := (hm' i hi).2
        rw [List.map_cons, List.sum_cons, ← add_assoc]
        exact this
      · have h1 := (hm i hi).2
        rw [hval] at h1
        change |_ - (p.val out i + _)| ≤ E + (|p.val out i + _| + E) / 2 ^ 24 + 1 / 2 ^ 150 at h1
        have h3 : (f32At m (out + 4 * i)).toRat - (T i + p.val out i) =
            ((f32At m (out + 4 * i)).toRat - (p.val out i + (f32At m0 (out + 4 * i)).toRat)) + ((f32At m0 (out + 4 * i)).toRat - T i) := by ring
        rw [h3]
        refine (abs_add_le _ _).trans ?_
        have h2 := hgr _ (hAB i hi)
        have h6 := (hA i hi).2
        linarith
      · have h1 := hB i hi
        simp only [List.map_cons, List.sum_cons] at h1
        have h4 := abs_add_le (T i) (p.val out i)
        show |T i + p.val out i| + _ ≤ B
        linarith
      · have := hT (k + 1) (by simpa using hk)
        simpa [List.take_succ_cons, List.map_cons, List.sum_cons, add_assoc] using this

/-- C102. A partial sum travels through any number of peers; at every hop the sender computes parameters from what it holds.  With
`κ` the relative quantization error of a hop (`AutoHop.Ok.rel`), `B` a bound on the sums of magnitudes, and true partial sums that have
both signs (beyond the error bound: C26 and C53 show what one-sided data does): no call fails, the last partial sum is finite and within
`(((1 + κ)(1 + 2^-23))^hops - 1) B` of the true sum. -/
theorem C102_ring_computed (hops : List AutoHop) {B M κ : ℚ} (hκ : 0 ≤ κ) (hB0 : 1 / 2 ^ 101 ≤ B) (h : ∀ h ∈ hops, h.Ok n out κ)
    (hfin : ∀ i, i < n → (f32At m0 (out + 4 * i)).isFin = true)
    (hB : ∀ i, i < n → |(f32At m0 (out + 4 * i)).toRat| + (hops.map (fun h => |h.val out i|)).sum ≤ B)
    (hT : ∀ k, k < hops.length → Straddles n M (fun i => (f32At m0 (out + 4 * i)).toRat + ((hops.take k).map (fun h => h.val out i)).sum))
    (hM : (growth κ ^ hops.length - 1) * B + 1 / 2 ^ 101 ≤ M) (hw : growth κ ^ hops.length * B ≤ 2 ^ 99) :
    AutoRing n out hops m0 (fun m => ∀ i, i < n → (f32At m (out + 4 * i)).isFin = true ∧
      |(f32At m (out + 4 * i)).toRat - ((f32At m0 (out + 4 * i)).toRat + (hops.map (fun h => h.val out i)).sum)| ≤ (growth κ ^ hops.length - 1) * B) := by
  have e : growth κ ^ hops.length * (0 + B) - B = (growth κ ^ hops.length - 1) * B := by ring
  have := auto_core (n := n) (out := out) hops (B := B) (M := M) hκ hB0 (m0 := m0) (T := fun i => (f32At m0 (out + 4 * i)).toRat) (D := 0) h (le_refl _)
    (fun i hi => ⟨hfin i hi, by simp⟩) hB hT (by rw [e]; exact hM) (by rw [zero_add]; exact hw)
  rw [e] at this
  exact this

theorem sum_le_abs (l : List AutoHop) (i : Nat) : |(l.map (fun h => h.val out i)).sum| ≤ (l.map (fun h => |h.val out i|)).sum := by
  induction l with
  | nil => simp
  | cons p l ih =>
    simp only [List.map_cons, List.sum_cons]
    exact (abs_add_le _ _).trans (by linarith)

/-- C102, whole all-reduce: after the ring the last peer computes parameters from the sum and quantizes it, and any number of peers, on
any CPUs, dequantize these codes.  All of them hold bit-identical floats, and these are within
`(((1 + κ)(1 + 2^-23))^(hops + 1) - 1) B` of the true sum. -/
theorem C102_allreduce_computed (hops : List AutoHop) (g : AutoHop) (readers : List Reader) {B M κ : ℚ} (hκ : 0 ≤ κ) (hB0 : 1 / 2 ^ 101 ≤ B)
    (h : ∀ h ∈ hops, h.Ok n out κ) (hg : g.Ok n out κ)
    (hrd : ∀ r ∈ readers, Sizes n r.c.threads ∧ bytes g.dt.bits n ≤ r.sz ∧ Readable g.dt .f32 n r.sz)
    (hfin : ∀ i, i < n → (f32At m0 (out + 4 * i)).isFin = true)
    (hB : ∀ i, i < n → |(f32At m0 (out + 4 * i)).toRat| + (hops.map (fun h => |h.val out i|)).sum ≤ B)
    (hT : ∀ k, k ≤ hops.length → Straddles n M (fun i => (f32At m0 (out + 4 * i)).toRat + ((hops.take k).map (fun h => h.val out i)).sum))
    (hM : (growth κ ^ hops.length - 1) * B + 1 / 2 ^ 101 ≤ M) (hw : growth κ ^ hops.length * B ≤ 2 ^ 99) :
    AutoRing n out hops m0 (fun m =>
      ∃ s z, computeQuantConfigFromData g.c.isa .f32 (held n out m) g.blocks g.dt = .ret (s, z) ∧
      Always NoFault (quantize g.c (held n out m) .f32 g.o (bytes g.dt.bits n) g.dt s z g.mode g.τ) (span g.o (bytes g.dt.bits n)) g.mem (fun mq =>
        ∃ y : Nat → F32,
          (∀ i, i < n → (y i).isFin = true ∧
            |(y i).toRat - ((f32At m0 (out + 4 * i)).toRat + (hops.map (fun h => h.val out i)).sum)| ≤ (growth κ ^ (hops.length + 1) - 1) * B) ∧
          ∀ r ∈ readers,
            Always NoFault (dequantize r.c ⟨r.sz, fun a => mq (g.o + a)⟩ (bytes g.dt.bits n) g.dt r.o (4 * n) .f32 s z .set) (span r.o (4 * n)) r.mem
              (fun m' => ∀ i, i < n → f32At m' (r.o + 4 * i) = y i))) := by
  refine AutoRing.mono (fun m hm => ?_) (C102_ring_computed hops hκ hB0 h hfin hB (fun k hk => hT k hk.le) hM hw)
  have hg1 := one_le_growth hκ
  have hgl : 1 ≤ growth κ ^ hops.length := one_le_pow₀ hg1
  have p101 : (0:ℚ) < 1 / 2 ^ 101 := by positivity
  have hTl : Straddles n M (fun i => (f32At m0 (out + 4 * i)).toRat + (hops.map (fun h => h.val out i)).sum) := by
    have := hT hops.length (le_refl _)
    rw [List.take_length] at this
    exact this
  have hTB : ∀ i, i < n → |(f32At m0 (out + 4 * i)).toRat + (hops.map (fun h => h.val out i)).sum| ≤ B := fun i hi => by
    have h1 := sum_le_abs (out := out) hops i
    have h2 := abs_add_le (f32At m0 (out + 4 * i)).toRat (hops.map (fun h => h.val out i)).sum
    linarith [hB i hi]
  have eD : B + (growth κ ^ hops.length - 1) * B = growth κ ^ hops.length * B := by ring
  obtain ⟨s, z, e, hok, herr⟩ := hg.params (B := B) hm hTB hTl hM (by rw [eD]; exact hw)
  refine ⟨s, z, e, ?_⟩
  have hs : 0 < s.toRat := lt_of_lt_of_le (by positivity) hok.lo
  have hsf : s.isFin = true := isFin_of_abs (by
    rw [abs_of_pos hs, emax_f32]; exact lt_of_le_of_lt hok.hi (by norm_num))
  refine Always.mono (peer_codes hok) (fun _ h => h) (fun mq hq => ?_)
  refine ⟨fun i => dequant s z (code g.dt.bits mq g.o i), fun i hi => ?_, fun r hr => ?_⟩
  · obtain ⟨k1, k2⟩ := hq i hi
    have k2' : |(((code g.dt.bits mq g.o i : ℤ) - z : ℤ) : ℚ) - (elem .f32 (held n out m).data 0 i).toRat / s.toRat| ≤ tol g.mode + 1 / 2 ^ 13 + 1 / 2 ^ 25 := k2
    obtain ⟨a1, a2⟩ := near_of (y := elem .f32 (held n out m).data 0 i) (e := tol g.mode) k1 hsf hok.lo hok.hi k2'
    rw [held_elem] at a2
    refine ⟨a1, ?_⟩
    have h1 := (hm i hi).2
    have h5 := abs_add_le ((dequant s z (code g.dt.bits mq g.o i)).toRat - (f32At m (out + 4 * i)).toRat)
      ((f32At m (out + 4 * i)).toRat - ((f32At m0 (out + 4 * i)).toRat + (hops.map (fun h => h.val out i)).sum))
    rw [sub_add_sub_cancel] at h5
    have a3 : |(dequant s z (code g.dt.bits mq g.o i)).toRat - (f32At m (out + 4 * i)).toRat| ≤ κ * (B + (growth κ ^ hops.length - 1) * B) := a2.trans herr
    have e2 : κ * (B + (growth κ ^ hops.length - 1) * B) + (growth κ ^ hops.length - 1) * B = (growth κ ^ hops.length * (1 + κ) - 1) * B := by ring
    have e3 : growth κ ^ hops.length * (1 + κ) ≤ growth κ ^ (hops.length + 1) := by
      rw [pow_succ]
      refine mul_le_mul_of_nonneg_left ?_ (by linarith)
      unfold growth
      exact le_mul_of_one_le_right (by linarith) (by norm_num)
    have e4 : (growth κ ^ hops.length * (1 + κ) - 1) * B ≤ (growth κ ^ (hops.length + 1) - 1) * B := mul_le_mul_of_nonneg_right (by linarith) (by linarith)
    linarith
  · obtain ⟨b1, b2, b3⟩ := hrd r hr
    obtain ⟨_, _, hc⟩ := hok.covered
    have hz : 0 ≤ z ∧ z ≤ 2 ^ g.dt.bits - 1 := hc.zp
    have hQ := qmax_bounds hg.quant
    have hzs : ZpSub z := by unfold ZpSub; norm_num; omega
    refine (C09_dequantize_f32_formula (c := r.c) ⟨hg.quant, rfl, b2, b1⟩ b3 hzs).mono (fun _ h => h) (fun m' hm' i hi => ?_)
    rw [hm' i hi]
    have e : code g.dt.bits (fun a => mq (g.o + a)) 0 i = code g.dt.bits mq g.o i := code_shift _ _ _ _
    rw [show (InBuf.data ⟨r.sz, fun a => mq (g.o + a)⟩) = fun a => mq (g.o + a) from rfl, e]

/-- Two hops of three peers with the same five numbers, sent as uint8. -/
def exAuto : List AutoHop :=
  [⟨.uint8, .nearest, f0, ⟨.avx2, 3, .none⟩, [(0, 3), (3, 5)], 64, fun _ => 0, ⟨.portable, 2, .none⟩, 5, ringMem⟩,
   ⟨.uint8, .nearest, f0, ⟨.sse42, 2, .none⟩, [(0, 5)], 64, fun _ => 1, ⟨.avx512f, 4, .none⟩, 5, ringMem⟩]

theorem exAuto_ok : ∀ h ∈ exAuto, h.Ok 5 0 (1 / 250) := by
  intro p hp
  simp only [exAuto, List.mem_cons, List.not_mem_nil, or_false] at hp
  rcases hp with rfl | rfl
  · exact ⟨rfl, ⟨rfl, by decide, rfl, by decide, rfl⟩, (fun h => by cases h), sz 5 3, sz 5 2, (fun h => by cases h), by decide +kernel, by decide, (fun h => by cases h),
      (fun h => by cases h), by decide +kernel⟩
  · exact ⟨rfl, ⟨rfl, by decide, rfl⟩, (fun _ => by decide), sz 5 2, sz 5 4, (fun h => by cases h), by decide +kernel, by decide, (fun h => by cases h),
      (fun h => by cases h), by decide +kernel⟩

theorem exAuto_straddles : ∀ k, k ≤ exAuto.length → Straddles 5 (5 / 2) (fun i => (f32At ringMem (0 + 4 * i)).toRat + ((exAuto.take k).map (fun h => h.val 0 i)).sum) := by
  intro k hk
  have h : ∀ k, k ≤ exAuto.length → (fun i => (f32At ringMem (0 + 4 * i)).toRat + ((exAuto.take k).map (fun h => h.val 0 i)).sum) 1 ≤ -(5 / 2) ∧
    5 / 2 ≤ (fun i => (f32At ringMem (0 + 4 * i)).toRat + ((exAuto.take k).map (fun h => h.val 0 i)).sum) 4 := by decide +kernel
  exact ⟨⟨1, by norm_num, (h k hk).1⟩, ⟨4, by norm_num, (h k hk).2⟩⟩

/-- `C102_ring_computed` applied to a concrete case. -/
example := C102_ring_computed (n := 5) (out := 0) (m0 := ringMem) (hops := exAuto) (B := 300) (M := 5 / 2) (κ := 1 / 250) (hκ := by norm_num) (hB0 := by norm_num) (h := exAuto_ok)
    (hfin := by decide +kernel) (hB := by decide +kernel) (hT := fun k hk => exAuto_straddles k hk.le) (hM := by decide +kernel) (hw := by decide +kernel)

/-- `C102_allreduce_computed` applied to a concrete case: the sum is read by an AVX2 and a portable peer. -/
example := C102_allreduce_computed (n := 5) (out := 0) (m0 := ringMem) (hops := exAuto) (B := 300) (M := 5 / 2) (κ := 1 / 250) (hκ := by norm_num) (hB0 := by norm_num)
    (h := exAuto_ok) (g := ⟨.uint8, .nearest, f0, ⟨.avx2, 3, .none⟩, [(0, 3), (3, 5)], 64, fun _ => 0, ⟨.portable, 2, .none⟩, 5, ringMem⟩)
    (readers := [⟨⟨.avx2, 3, .none⟩, 5, 0, Ex.old⟩, ⟨⟨.portable, 1, .none⟩, 5, 1000, Ex.old⟩]) (hg := exAuto_ok _ List.mem_cons_self)
    (hrd := by simp only [List.forall_mem_cons]; exact ⟨⟨sz 5 3, by decide, fun h => by cases h⟩, ⟨sz 5 1, by decide, fun h => by cases h⟩, by simp⟩)
    (hfin := by decide +kernel) (hB := by decide +kernel) (hT := exAuto_straddles) (hM := by decide +kernel) (hw := by decide +kernel)

end Verif.Props
