import Verif.Props.Examples
import Verif.Proofs.Rng
import Verif.Props.Quant
import Verif.Props.Concurrent

/-!
# The random threshold of stochastic calls: C68, and C17, C18 with the real generator
-/

namespace Verif.Props
open Spec

/-! ## C68: which threshold a call uses -/

/-- The sequence of `std::mt19937_64` as the C++ standard defines it ([rand.eng.mers]): `X 0` is the seed, the next 311
words follow the seeding recurrence, the others the linear recurrence over the two elements field; the `k`-th value
returned is the tempered word `k + 312`. -/
structure IsMt64 (seed : Nat) (X : Nat → Nat) : Prop where
  first : X 0 = seed % 2 ^ 64
  seeding : ∀ i, 0 < i → i < 312 → X i = (6364136223846793005 * (X (i - 1) ^^^ (X (i - 1) >>> 62)) + i) % 2 ^ 64
  twist : ∀ i, X (i + 312) = X (i + 156) ^^^ (((X i &&& 0xFFFFFFFF80000000) ||| (X (i + 1) &&& 0x7FFFFFFF)) >>> 1) ^^^
    (if ((X i &&& 0xFFFFFFFF80000000) ||| (X (i + 1) &&& 0x7FFFFFFF)) % 2 = 1 then 0xb5026f5aa96619e9 else 0)

/-- The tempering of the standard ([rand.eng.mers]/4, with `u = 29`, `s = 17`, `t = 37`, `l = 43` and the masks `d`, `b`, `c` of
`mt19937_64`). -/
def IsTempered (x y : Nat) : Prop :=
  ∃ z1 z2 z3, z1 = x ^^^ ((x / 2 ^ 29) &&& 0x5555555555555555) ∧ z2 = z1 ^^^ ((z1 * 2 ^ 17 % 2 ^ 64) &&& 0x71d67fffeda60000) ∧
    z3 = z2 ^^^ ((z2 * 2 ^ 37 % 2 ^ 64) &&& 0xfff7eee000000000) ∧ y = z3 ^^^ (z3 / 2 ^ 43)

theorem temper_spec (x : Nat) : IsTempered x (mtTemper x) := by
  refine ⟨_, _, _, rfl, rfl, rfl, ?_⟩
  unfold mtTemper
  simp only [Nat.shiftRight_eq_div_pow, Nat.shiftLeft_eq]

/-- The `k`-th value returned by a generator. -/
def stream (g : Mt) (k : Nat) : Nat := (Mt.next^[k] g).out

/-- Word `i` of the sequence, computed from the model. -/
def wordAt (g : Mt) (i : Nat) : Nat := if i < 312 then g.words.getD i 0 else (Mt.next^[i - 312] g).fresh

theorem next_getD {g : Mt} (h : g.Ok) {j : Nat} (hj : j < 311) : g.next.words.getD j 0 = g.words.getD (j + 1) 0 := by
  obtain ⟨hl, -⟩ := h
  cases g with | mk ws =>
  cases ws with
  | nil => simp at hl
  | cons a l =>
    simp only [List.length_cons] at hl
    unfold Mt.next
    simp only [List.tail_cons]
    rw [List.getD_append _ _ _ _ (by omega), List.getD_cons_succ]
theorem next_last {g : Mt} (h : g.Ok) : g.next.words.getD 311 0 = g.fresh := by
  obtain ⟨hl, -⟩ := h
  unfold Mt.next
  simp only
  rw [List.getD_append_right _ _ _ _ (by rw [List.length_tail, hl])]
  rw [List.length_tail, hl]; rfl

/-- The window after `k` steps. -/
theorem window {g : Mt} (h : g.Ok) (k : Nat) : ∀ j, j < 312 → (Mt.next^[k] g).words.getD j 0 = wordAt g (k + j) := by
  induction k with
  | zero => intro j hj; unfold wordAt; rw [Nat.zero_add, if_pos hj]; rfl
  | succ k ih =>
    intro j hj
    rw [Function.iterate_succ_apply']
    rcases Nat.lt_or_ge j 311 with h1 | h1
    · rw [next_getD (h.iter k) h1, ih (j + 1) (by omega)]; congr 1; omega
    · rw [show j = 311 by omega, next_last (h.iter k)]
      unfold wordAt
      rw [if_neg (by omega), show k + 1 + 311 - 312 = k by omega]

theorem seedFrom_getD (k : Nat) : ∀ prev i j, j < k → (mtSeedFrom prev i k).getD j 0 = mtSeedStep (if j = 0 then prev else (mtSeedFrom prev i k).getD (j - 1) 0) (i + j) := by
  induction k with
  | zero => intro p i j hj; omega
  | succ k ih =>
    intro p i j hj
    rw [mtSeedFrom]
    cases j with
    | zero => rw [if_pos rfl, List.getD_cons_zero, Nat.add_zero]
    | succ j =>
      rw [List.getD_cons_succ, ih _ _ j (by omega), if_neg (Nat.succ_ne_zero j), Nat.add_sub_cancel, show i + 1 + j = i + (j + 1) by omega]
      cases j with
      | zero => rw [if_pos rfl, List.getD_cons_zero]
      | succ j => rw [if_neg (Nat.succ_ne_zero j), Nat.add_sub_cancel, List.getD_cons_succ]

/-- C68. The values a thread's generator returns are those the C++ standard prescribes for `std::mt19937_64`. -/
theorem C68_generator_is_mt19937_64 (seed : Nat) : ∃ X, IsMt64 seed X ∧ ∀ k, IsTempered (X (k + 312)) (stream (Mt.init seed) k) := by
  have hok := Mt.init_ok seed
  refine ⟨wordAt (Mt.init seed), ⟨rfl, fun i h0 hi => ?_, fun i => ?_⟩, fun k => ?_⟩
  · unfold wordAt
    rw [if_pos hi, if_pos (by omega)]
    obtain ⟨j, rfl⟩ : ∃ j, i = j + 1 := ⟨i - 1, by omega⟩
    unfold Mt.init mtSeed
    simp only [List.getD_cons_succ, Nat.add_sub_cancel]
    rw [seedFrom_getD 311 _ _ j (by omega)]
    unfold mtSeedStep
    cases j with
    | zero => simp
    | succ j => rw [if_neg (by omega), List.getD_cons_succ, Nat.add_sub_cancel, show 1 + (j + 1) = j + 1 + 1 by omega]
  · have e : wordAt (Mt.init seed) (i + 312) = (Mt.next^[i] (Mt.init seed)).fresh := by
      unfold wordAt; rw [if_neg (by omega), Nat.add_sub_cancel]
    rw [e]
    unfold Mt.fresh mtTwist
    simp only
    rw [window hok i 0 (by norm_num), window hok i 1 (by norm_num), window hok i 156 (by norm_num), Nat.and_one_is_mod]
    rfl
  · unfold stream Mt.out wordAt
    rw [if_neg (by omega), Nat.add_sub_cancel]
    exact temper_spec _

/-- The calls that use a random value: quantize and fused calls in stochastic mode. -/
def random : Req → Bool
  | .quantize _ _ _ _ _ _ _ _ .stochastic => true
  | .fused _ _ _ _ _ _ _ _ .stochastic _ => true
  | _ => false

theorem random_iff (r : Req) : random r = true ↔ r.rounding = .stochastic := by
  cases r with
  | quantize c x dtIn o outSize dtOut scale zp mode => cases mode <;> simp [random, Req.rounding]
  | dequantize => simp [random, Req.rounding]
  | fused c x dt o outSize qt scale zp mode op => cases mode <;> simp [random, Req.rounding]

/-- The call a request makes when the generator gives `w`. -/
def callWith (w : Nat) : Req → Call
  | .quantize c x dtIn o outSize dtOut scale zp .stochastic => quantize c x dtIn o outSize dtOut scale zp .stochastic (thresholdOf w)
  | .quantize c x dtIn o outSize dtOut scale zp .nearest => quantize c x dtIn o outSize dtOut scale zp .nearest f0
  | .dequantize c x inSize dtIn o outSize dtOut scale zp op => dequantize c x inSize dtIn o outSize dtOut scale zp op
  | .fused c x dt o outSize qt scale zp .stochastic op => fused c x dt o outSize qt scale zp .stochastic op (thresholdOf w)
  | .fused c x dt o outSize qt scale zp .nearest op => fused c x dt o outSize qt scale zp .nearest op f0

theorem callWith_eq (r : Req) (w : Nat) : callWith w r = r.call (if r.rounding = .stochastic then thresholdOf w else f0) := by
  cases r with
  | quantize c x dtIn o outSize dtOut scale zp mode => cases mode <;> rfl
  | dequantize => rfl
  | fused c x dt o outSize qt scale zp mode op => cases mode <;> rfl

/-- How many calls of the thread in a history use a random value. -/
def draws (t : Nat) (hist : List (Nat × Req)) : Nat := (hist.filter (fun e => decide (e.1 = t) && random e.2)).length

/-- C68. In every history of calls made by any threads, a stochastic call that is number `k` (from 0) of the stochastic calls
of its thread uses the `k`-th value of that thread's own generator; whatever other threads do, and whatever nearest,
dequantize calls are made in between.  Calls that are not stochastic use no random number. -/
theorem C68_each_thread_has_its_own_stream (gens : Nat → Mt) (hist : List (Nat × Req)) {j t : Nat} {r : Req} (hj : hist[j]? = some (t, r)) :
    (issueAll gens hist)[j]? = some (callWith (stream (gens t) (draws t (hist.take j))) r) := by
  rw [callWith_eq]
  induction hist generalizing gens j with
  | nil => simp at hj
  | cons e rest ih =>
    obtain ⟨t', r'⟩ := e
    cases j with
    | zero =>
      simp only [List.getElem?_cons_zero, Option.some.injEq, Prod.mk.injEq] at hj
      obtain ⟨rfl, rfl⟩ := hj
      unfold issueAll
      rw [List.getElem?_cons_zero, List.take_zero]
      unfold Req.issue draws stream
      by_cases hr : r'.rounding = .stochastic
      · rw [if_pos hr, if_pos hr]
        simp only [List.filter_nil, List.length_nil, Function.iterate_zero_apply]
      · rw [if_neg hr, if_neg hr]
    | succ j =>
      rw [List.getElem?_cons_succ] at hj
      unfold issueAll
      rw [List.getElem?_cons_succ, ih _ hj, List.take_succ_cons]
      have e : stream (Function.update gens t' (r'.issue (gens t')).1 t) (draws t (rest.take j)) = stream (gens t) (draws t ((t', r') :: rest.take j)) := by
        by_cases ht : t = t'
        · subst ht
          rw [Function.update_self]
          unfold Req.issue draws
          by_cases hr : r'.rounding = .stochastic
          · rw [if_pos hr, List.filter_cons_of_pos (by simp [(random_iff r').mpr hr]), List.length_cons]
            unfold stream
            rw [Function.iterate_succ_apply]
          · rw [if_neg hr, List.filter_cons_of_neg (by simp [random_iff, hr])]
        · rw [Function.update_of_ne ht]
          unfold draws
          rw [List.filter_cons_of_neg (by simp [Ne.symm ht])]
      rw [e]

/-- C68. Whatever the seed and however many values have been drawn, the threshold is a finite float in `[0, 1)`; it is the
64-bit value of the generator divided by 2^64, rounded to 24 bits and kept below 1. -/
theorem C68_threshold_in_unit_interval (seed k : Nat) :
    stream (Mt.init seed) k < 2 ^ 64 ∧ (thresholdOf (stream (Mt.init seed) k)).isFin = true ∧
    0 ≤ (thresholdOf (stream (Mt.init seed) k)).toRat ∧ (thresholdOf (stream (Mt.init seed) k)).toRat < 1 ∧
    |(thresholdOf (stream (Mt.init seed) k)).toRat - (stream (Mt.init seed) k : ℚ) / 2 ^ 64| ≤ 1 / 2 ^ 24 := by
  have hw : stream (Mt.init seed) k < 2 ^ 64 := ((Mt.init_ok seed).iter k).out
  obtain ⟨h1, h2, h3, h4, -⟩ := threshold_val hw
  exact ⟨hw, h1, h2, h3, h4⟩

/-- C68. Tempering is one-to-one on 64-bit words: a uniformly distributed word of the recurrence gives a uniformly distributed
value. -/
theorem C68_tempering_bijective : Function.Bijective (fun w : Fin (2 ^ 64) => (⟨mtTemper w, mtTemper_lt w.2⟩ : Fin (2 ^ 64))) := by
  rw [← Finite.injective_iff_bijective]
  intro a b h
  exact Fin.ext (mtTemper_inj a.2 b.2 (by simpa using h))

/-! ## C17, C18 with the real generator -/

section
variable {c : Ctx} {x : InBuf} {dtIn dtOut : DType} {n o : Nat} {scale : F32} {zp : ℤ} {m0 : Mem}

/-- C17. A stochastic call of any thread, at any point of its history, whatever its seed: each code is the saturated value of
one of the two neighbours of the scaled value, `1` away only when it is not an integer. -/
theorem C17_stochastic_neighbours_any_history (seed k : Nat) (h : QArgs c.threads x dtIn dtOut n) (hz : Zp32 zp)
    (hd : ∀ i, i < n → (scaled (elem dtIn x.data 0 i) scale).isFin = true ∧ |(scaled (elem dtIn x.data 0 i) scale).toRat| ≤ 2 ^ 62) :
    Always NoFault (quantize c x dtIn o (bytes dtOut.bits n) dtOut scale zp .stochastic (thresholdOf (stream (Mt.init seed) k))) (span o (bytes dtOut.bits n)) m0
      (fun m => ∀ i, i < n → ∃ r : ℤ, (r = ⌊(scaled (elem dtIn x.data 0 i) scale).toRat⌋ ∨ r = ⌈(scaled (elem dtIn x.data 0 i) scale).toRat⌉) ∧
        (code dtOut.bits m o i : ℤ) = sat dtOut.bits (r + zp)) := by
  obtain ⟨-, h1, h2, -, -⟩ := C68_threshold_in_unit_interval seed k
  generalize thresholdOf (stream (Mt.init seed) k) = τ at *
  refine (C17_stochastic_neighbours h hz h1 h2 hd).mono (fun _ h => h) (fun m hm i hi => ?_)
  obtain ⟨g1, g2, g3⟩ := hm i hi
  generalize (scaled (elem dtIn x.data 0 i) scale).toRat = p at *
  by_cases hz : ∃ z : ℤ, p = z
  · obtain ⟨z, rfl⟩ := hz
    exact ⟨z, Or.inl (Int.floor_intCast z).symm, g3 z rfl⟩
  · have hne : (⌊p⌋ : ℚ) < p := lt_of_le_of_ne (Int.floor_le p) (fun h => hz ⟨⌊p⌋, h.symm⟩)
    have hce : ⌈p⌉ = ⌊p⌋ + 1 := by
      rw [Int.ceil_eq_iff]; push_cast
      exact ⟨by linarith, (Int.lt_floor_add_one p).le⟩
    have hr : (0 ≤ p → rtz p = ⌊p⌋) ∧ (p < 0 → rtz p = ⌈p⌉) := ⟨fun h => by unfold rtz; rw [if_neg (not_lt.mpr h)], fun h => by unfold rtz; rw [if_pos h, Int.floor_neg, neg_neg]⟩
    rcases le_or_gt |p - rtz p| τ.toRat with hle | hlt
    · refine ⟨rtz p, ?_, g1 hle⟩
      rcases lt_or_ge p 0 with hp | hp
      · exact Or.inr (hr.2 hp)
      · exact Or.inl (hr.1 hp)
    · refine ⟨rtz p + (if p < 0 then -1 else 1), ?_, g2 hlt⟩
      rcases lt_or_ge p 0 with hp | hp
      · left; rw [if_pos hp, hr.2 hp, hce]; ring
      · right; rw [if_neg (not_lt.mpr hp), hr.1 hp, hce]

/-- `C17_stochastic_neighbours_any_history` applied to a concrete case. -/
example := C17_stochastic_neighbours_any_history (c := Ex.c1) (x := Ex.many) (dtIn := .f32) (dtOut := .uint8) (n := 70) (o := 1000) (scale := Ex.tenth)
    (zp := 64) (m0 := Ex.old) (seed := 42) (k := 7) (h := by wit) (hz := by wit) (hd := by wit)

/-- C18. The mean over all 2^64 values the generator can return (each equally often: C68_tempering_bijective) of the code,
less the zero point, is the scaled value up to 2^-24 + 2^-64: a stochastic call is unbiased up to the resolution of the
threshold. -/
theorem C18_generator_mean {m0s ms : Nat → Mem} (h : QArgs c.threads x dtIn dtOut n) (hz : Zp32 zp)
    (hd : ∀ i, i < n → (scaled (elem dtIn x.data 0 i) scale).isFin = true ∧ |(scaled (elem dtIn x.data 0 i) scale).toRat| ≤ 2 ^ 62)
    (ho : ∀ w, w < 2 ^ 64 → Outcome (quantize c x dtIn o (bytes dtOut.bits n) dtOut scale zp .stochastic (thresholdOf w)) (span o (bytes dtOut.bits n)) (m0s w) (ms w))
    {i : Nat} (hi : i < n) (hlo : 0 ≤ ⌊(scaled (elem dtIn x.data 0 i) scale).toRat⌋ + zp)
    (hhi : ⌈(scaled (elem dtIn x.data 0 i) scale).toRat⌉ + zp ≤ 2 ^ dtOut.bits - 1) :
    |((List.range (2 ^ 64)).map (fun w => ((code dtOut.bits (ms w) o i : ℤ) - zp : ℚ))).sum / 2 ^ 64 - (scaled (elem dtIn x.data 0 i) scale).toRat| ≤ 1 / 2 ^ 24 + 1 / 2 ^ 64 := by
  have hN : ∃ N : Nat, N = 2 ^ 64 := ⟨_, rfl⟩
  obtain ⟨N, hN⟩ := hN
  have hq : (2 : ℚ) ^ 64 = (N : ℚ) := by rw [hN]; push_cast; rfl
  have h0 : 0 < N := by rw [hN]; exact Nat.two_pow_pos 64
  have ht : ∀ w, w < N → (thresholdOf w).isFin = true ∧ 0 ≤ (thresholdOf w).toRat ∧ |(thresholdOf w).toRat - w / N| ≤ 1 / 2 ^ 24 := by
    intro w hw
    obtain ⟨h1, h2, -, h4, -⟩ := threshold_val (hN ▸ hw)
    rw [hq] at h4
    exact ⟨h1, h2, h4⟩
  rw [← hN] at ho ⊢
  rw [hq]
  exact C18_stochastic_mean (τs := thresholdOf) (m0s := m0s) (ms := ms) h hz h0 (by positivity) ht hd ho hi hlo hhi

end

/-! ## A concrete history -/

/-- The default seed of the standard: its first value. -/
example : stream (Mt.init 5489) 0 = 14514284786278117030 := by decide +kernel

/-- Two threads: thread 1 makes a stochastic call, thread 2 a nearest one and a stochastic one, thread 1 a stochastic one. -/
def history : List (Nat × Req) :=
  [(1, .quantize ⟨.avx2, 2, .none⟩ Ex.xs .f32 1000 3 .uint4 Ex.half 8 .stochastic),
   (2, .quantize ⟨.avx2, 2, .none⟩ Ex.xs .f32 2000 3 .uint4 Ex.half 8 .nearest),
   (2, .quantize ⟨.portable, 1, .none⟩ Ex.xs .f32 3000 3 .uint4 Ex.half 8 .stochastic),
   (1, .fused ⟨.avx2, 1, .none⟩ Ex.xs .f32 4000 20 .uint4 Ex.half 8 .stochastic .set)]

/-- Its last call uses the second value of thread 1. -/
example (gens : Nat → Mt) : (issueAll gens history)[3]? =
    some (fused ⟨.avx2, 1, .none⟩ Ex.xs .f32 4000 20 .uint4 Ex.half 8 .stochastic .set (thresholdOf (stream (gens 1) 1))) :=
  C68_each_thread_has_its_own_stream gens history (j := 3) (t := 1) rfl

/-- The thresholds of a thread with seed 42 are `0x3f4151df`, `0x3f239790`, and are used by its calls. -/
example : thresholdOf (stream (Mt.init 42) 0) = ⟨false, 0x3f4151df⟩ ∧ thresholdOf (stream (Mt.init 42) 1) = ⟨false, 0x3f239790⟩ := by decide +kernel

/-- The hypotheses of C17, C18 are met by five floats and every 64-bit value. -/
example : QArgs 2 Ex.xs .f32 .uint4 5 ∧ Zp32 8 ∧
    (∀ i, i < 5 → (scaled (elem .f32 Ex.xs.data 0 i) Ex.half).isFin = true ∧ |(scaled (elem .f32 Ex.xs.data 0 i) Ex.half).toRat| ≤ 2 ^ 62) := by
  refine ⟨⟨rfl, rfl, rfl, by decide, by norm_num, by norm_num⟩, by decide, ?_⟩
  decide +kernel

end Verif.Props
