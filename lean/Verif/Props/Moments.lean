import Verif.Props.Rng
import Verif.Props.Witness
import Mathlib.Algebra.BigOperators.Ring.Finset
import Mathlib.Algebra.Order.BigOperators.Group.Finset

/-!
# The errors of stochastic rounding: C91 (second moments), C92 (they do not average out within a call)
-/

namespace Verif.Props
open Spec

/-- The fraction of a scaled value: its distance to the integer next to it towards zero. -/
def frac (p : ℚ) : ℚ := |p - rtz p|

/-- The second moment of the rounding errors of two scaled values which share a uniform threshold: `±(min f g - f * g)` where
`f`, `g` are their fractions, with a plus sign if the values have the same sign. -/
def comoment (p q : ℚ) : ℚ := (if (p < 0 ↔ q < 0) then 1 else -1) * (min (frac p) (frac q) - frac p * frac q)

section
variable {c : Ctx} {x : InBuf} {dtIn dtOut : DType} {n o : Nat} {scale τ : F32} {zp : ℤ} {m0 : Mem}

theorem frac_range (p : ℚ) : 0 ≤ frac p ∧ frac p ≤ 1 := ⟨(frac_facts p).1, (frac_facts p).2.1⟩

theorem comoment_self (p : ℚ) : comoment p p = frac p * (1 - frac p) := by
  unfold comoment; rw [if_pos Iff.rfl, min_self]; ring

theorem comoment_nonneg {p q : ℚ} (h : p < 0 ↔ q < 0) : 0 ≤ comoment p q := by
  unfold comoment
  rw [if_pos h, one_mul]
  obtain ⟨f0, f1⟩ := frac_range p
  obtain ⟨g0, g1⟩ := frac_range q
  rcases min_choice (frac p) (frac q) with e | e <;> rw [e] <;> nlinarith

theorem variance_le (p : ℚ) : comoment p p ≤ 1 / 4 := by
  rw [comoment_self]; nlinarith [sq_nonneg (frac p - 1 / 2)]

/-- The error of stochastic rounding: `±(1 - f)` away from zero below the fraction, `∓f` otherwise. -/
theorem sround_err (t p : ℚ) : ((sround t p : ℤ) : ℚ) - p = (if p < 0 then -1 else 1) * ((if t < frac p then 1 else 0) - frac p) := by
  obtain ⟨-, -, fe⟩ := frac_facts p
  unfold sround frac
  generalize |p - rtz p| = a at *
  by_cases ht : t < a
  · rw [if_pos ht, if_pos ht]
    by_cases hp : p < 0
    · rw [if_pos hp, if_pos hp]; rw [if_pos hp] at fe; push_cast; linarith
    · rw [if_neg hp, if_neg hp]; rw [if_neg hp] at fe; push_cast; linarith
  · rw [if_neg ht, if_neg ht]; linarith

theorem sum_ind (t : Nat → ℚ) (a : ℚ) (N : Nat) :
    (∑ k ∈ Finset.range N, (if t k < a then (1 : ℚ) else 0)) = ((List.range N).countP (fun k => decide (t k < a)) : ℚ) := by
  induction N with
  | zero => simp
  | succ N ih =>
    rw [Finset.sum_range_succ, ih, List.range_succ, List.countP_append, List.countP_singleton]
    by_cases h : t N < a
    · simp [h]
    · simp [h]

/-- The mean of the product of two errors over thresholds near the uniform grid. -/
theorem sround_comoment {N : Nat} (hN : 0 < N) {ε : ℚ} (hε : 0 ≤ ε) (t : Nat → ℚ) (ht : ∀ k, k < N → |t k - k / N| ≤ ε) (p q : ℚ) :
    |(∑ k ∈ Finset.range N, (((sround (t k) p : ℤ) : ℚ) - p) * (((sround (t k) q : ℤ) : ℚ) - q)) / N - comoment p q| ≤ 3 * (ε + 1 / N) := by
  have hN' : (0:ℚ) < N := by exact_mod_cast hN
  obtain ⟨f0, f1⟩ := frac_range p
  obtain ⟨g0, g1⟩ := frac_range q
  have hp := countP_near hN f0 f1 hε t ht
  have hq := countP_near hN g0 g1 hε t ht
  have hm := countP_near hN (le_min f0 g0) ((min_le_left _ _).trans f1) hε t ht
  rw [← sum_ind] at hp hq hm
  set f := frac p
  set g := frac q
  have hs : (if (p < 0 ↔ q < 0) then (1 : ℚ) else -1) = (if p < 0 then -1 else 1) * (if q < 0 then -1 else 1) := by
    by_cases h1 : p < 0 <;> by_cases h2 : q < 0 <;> simp [h1, h2]
  have hsum : (∑ k ∈ Finset.range N, (((sround (t k) p : ℤ) : ℚ) - p) * (((sround (t k) q : ℤ) : ℚ) - q)) =
      (if (p < 0 ↔ q < 0) then 1 else -1) * ((∑ k ∈ Finset.range N, (if t k < min f g then (1 : ℚ) else 0)) -
        g * (∑ k ∈ Finset.range N, (if t k < f then (1 : ℚ) else 0)) - f * (∑ k ∈ Finset.range N, (if t k < g then (1 : ℚ) else 0)) + N * (f * g)) := by
    have e : (N : ℚ) * (f * g) = ∑ k ∈ Finset.range N, f * g := by rw [Finset.sum_const, Finset.card_range, nsmul_eq_mul]
    rw [e, Finset.mul_sum, Finset.mul_sum, ← Finset.sum_sub_distrib, ← Finset.sum_sub_distrib, ← Finset.sum_add_distrib, Finset.mul_sum]
    apply Finset.sum_congr rfl
    intro k _
    rw [sround_err, sround_err, hs]
    have hind : (if t k < min f g then (1 : ℚ) else 0) = (if t k < f then 1 else 0) * (if t k < g then 1 else 0) := by
      by_cases h1 : t k < f <;> by_cases h2 : t k < g <;> simp [h1, h2]
    rw [hind]
    ring
  rw [hsum]
  unfold comoment
  change |_ / _ - _ * (min f g - f * g)| ≤ _
  generalize (∑ k ∈ Finset.range N, (if t k < min f g then (1 : ℚ) else 0)) = M at *
  generalize (∑ k ∈ Finset.range N, (if t k < f then (1 : ℚ) else 0)) = P at *
  generalize (∑ k ∈ Finset.range N, (if t k < g then (1 : ℚ) else 0)) = Q at *
  have hs1 : |(if (p < 0 ↔ q < 0) then (1 : ℚ) else -1)| = 1 := by split <;> simp
  generalize (if (p < 0 ↔ q < 0) then (1 : ℚ) else -1) = s at *
  have e : s * (M - g * P - f * Q + N * (f * g)) / N - s * (min f g - f * g) = s * (((M - min f g * N) - g * (P - f * N) - f * (Q - g * N)) / N) := by
    field_simp
    ring
  rw [e, abs_mul, hs1, one_mul, abs_div, abs_of_pos hN', div_le_iff₀ hN']
  have e2 : 3 * (ε + 1 / (N:ℚ)) * N = 3 * (ε * N + 1) := by field_simp
  rw [e2]
  rw [abs_le] at hp hq hm ⊢
  have b1 : |g * (P - f * N)| ≤ ε * N + 1 := by
    rw [abs_mul, abs_of_nonneg g0]
    have := abs_le.mpr hp
    have hnn := abs_nonneg (P - f * N)
    nlinarith
  have b2 : |f * (Q - g * N)| ≤ ε * N + 1 := by
    rw [abs_mul, abs_of_nonneg f0]
    have := abs_le.mpr hq
    have hnn := abs_nonneg (Q - g * N)
    nlinarith
  rw [abs_le] at b1 b2
  constructor <;> linarith

/-- The code of an element that does not saturate, in a finished stochastic call. -/
theorem stochastic_code {m : Mem} (h : QArgs c.threads x dtIn dtOut n) (hz : Zp32 zp) (h1 : τ.isFin = true) (h2 : 0 ≤ τ.toRat)
    (hd : ∀ i, i < n → (scaled (elem dtIn x.data 0 i) scale).isFin = true ∧ |(scaled (elem dtIn x.data 0 i) scale).toRat| ≤ 2 ^ 62)
    (ho : Outcome (quantize c x dtIn o (bytes dtOut.bits n) dtOut scale zp .stochastic τ) (span o (bytes dtOut.bits n)) m0 m)
    {i : Nat} (hi : i < n) (hlo : 0 ≤ ⌊(scaled (elem dtIn x.data 0 i) scale).toRat⌋ + zp)
    (hhi : ⌈(scaled (elem dtIn x.data 0 i) scale).toRat⌉ + zp ≤ 2 ^ dtOut.bits - 1) :
    ((code dtOut.bits m o i : ℤ) - zp : ℚ) = ((sround τ.toRat (scaled (elem dtIn x.data 0 i) scale).toRat : ℤ) : ℚ) := by
  have hq := (quantize_vals (mode := .stochastic) (τ := τ) (m0 := m0) (o := o) h hz (fun i hi => ⟨(hd i hi).1, (hd i hi).2, h1, h2⟩)
    (Or.inl (Or.inr (Or.inr (Or.inl rfl))))).outcome ho
  have hq := (hq.1 i hi).resolve_right (fun h => h.1 (Or.inr (Or.inr (Or.inl rfl))))
  have hb := sround_bounds (τ := τ.toRat) (p := (scaled (elem dtIn x.data 0 i) scale).toRat) h2
  have he : (code dtOut.bits m o i : ℤ) = sround τ.toRat (scaled (elem dtIn x.data 0 i) scale).toRat + zp := by
    rw [hq]; exact sat_id (show 0 ≤ sround _ _ + zp by omega) (show sround _ _ + zp ≤ _ by omega)
  rw [he]; push_cast; ring

/-! ## C91 -/

/-- C91. `N` stochastic calls on the same data whose thresholds are within `ε` of the uniform grid: for any two elements which do
not saturate, the mean of the product of their errors (code less zero point less scaled value) is within `3 * (ε + 1/N)` of
`±(min f g - f * g)`, where `f` and `g` are the fractions of the two scaled values and the sign is that of their product. -/
theorem C91_covariance {N : Nat} {ε : ℚ} {τs : Nat → F32} {m0s ms : Nat → Mem} (h : QArgs c.threads x dtIn dtOut n) (hz : Zp32 zp)
    (hN : 0 < N) (hε : 0 ≤ ε) (hτ : ∀ k, k < N → (τs k).isFin = true ∧ 0 ≤ (τs k).toRat ∧ |(τs k).toRat - k / N| ≤ ε)
    (hd : ∀ i, i < n → (scaled (elem dtIn x.data 0 i) scale).isFin = true ∧ |(scaled (elem dtIn x.data 0 i) scale).toRat| ≤ 2 ^ 62)
    (ho : ∀ k, k < N → Outcome (quantize c x dtIn o (bytes dtOut.bits n) dtOut scale zp .stochastic (τs k)) (span o (bytes dtOut.bits n)) (m0s k) (ms k))
    {i j : Nat} {p q : ℚ} (hi : i < n) (hj : j < n)
    (hp : (scaled (elem dtIn x.data 0 i) scale).toRat = p) (hq : (scaled (elem dtIn x.data 0 j) scale).toRat = q)
    (hpl : 0 ≤ ⌊p⌋ + zp) (hph : ⌈p⌉ + zp ≤ 2 ^ dtOut.bits - 1) (hql : 0 ≤ ⌊q⌋ + zp) (hqh : ⌈q⌉ + zp ≤ 2 ^ dtOut.bits - 1) :
    |(∑ k ∈ Finset.range N, ((code dtOut.bits (ms k) o i : ℤ) - zp - p : ℚ) * ((code dtOut.bits (ms k) o j : ℤ) - zp - q : ℚ)) / N - comoment p q| ≤
      3 * (ε + 1 / N) := by
  subst hp hq
  have e : (∑ k ∈ Finset.range N, ((code dtOut.bits (ms k) o i : ℤ) - zp - (scaled (elem dtIn x.data 0 i) scale).toRat : ℚ) *
      ((code dtOut.bits (ms k) o j : ℤ) - zp - (scaled (elem dtIn x.data 0 j) scale).toRat : ℚ)) =
      ∑ k ∈ Finset.range N, (((sround (τs k).toRat (scaled (elem dtIn x.data 0 i) scale).toRat : ℤ) : ℚ) - (scaled (elem dtIn x.data 0 i) scale).toRat) *
        (((sround (τs k).toRat (scaled (elem dtIn x.data 0 j) scale).toRat : ℤ) : ℚ) - (scaled (elem dtIn x.data 0 j) scale).toRat) := by
    apply Finset.sum_congr rfl
    intro k hk
    have hk := Finset.mem_range.mp hk
    obtain ⟨h1, h2, _⟩ := hτ k hk
    rw [stochastic_code h hz h1 h2 hd (ho k hk) hi hpl hph, stochastic_code h hz h1 h2 hd (ho k hk) hj hql hqh]
  rw [e]
  exact sround_comoment hN hε (fun k => (τs k).toRat) (fun k hk => (hτ k hk).2.2) _ _

/-- C91. The mean squared error of an element is within `3 * (ε + 1/N)` of `f * (1 - f)`, so at most a quarter plus that. -/
theorem C91_mean_squared_error {N : Nat} {ε : ℚ} {τs : Nat → F32} {m0s ms : Nat → Mem} (h : QArgs c.threads x dtIn dtOut n) (hz : Zp32 zp)
    (hN : 0 < N) (hε : 0 ≤ ε) (hτ : ∀ k, k < N → (τs k).isFin = true ∧ 0 ≤ (τs k).toRat ∧ |(τs k).toRat - k / N| ≤ ε)
    (hd : ∀ i, i < n → (scaled (elem dtIn x.data 0 i) scale).isFin = true ∧ |(scaled (elem dtIn x.data 0 i) scale).toRat| ≤ 2 ^ 62)
    (ho : ∀ k, k < N → Outcome (quantize c x dtIn o (bytes dtOut.bits n) dtOut scale zp .stochastic (τs k)) (span o (bytes dtOut.bits n)) (m0s k) (ms k))
    {i : Nat} {p : ℚ} (hi : i < n) (hp : (scaled (elem dtIn x.data 0 i) scale).toRat = p)
    (hpl : 0 ≤ ⌊p⌋ + zp) (hph : ⌈p⌉ + zp ≤ 2 ^ dtOut.bits - 1) :
    |(∑ k ∈ Finset.range N, ((code dtOut.bits (ms k) o i : ℤ) - zp - p : ℚ) ^ 2) / N - |p - rtz p| * (1 - |p - rtz p|)| ≤ 3 * (ε + 1 / N) ∧
    (∑ k ∈ Finset.range N, ((code dtOut.bits (ms k) o i : ℤ) - zp - p : ℚ) ^ 2) / N ≤ 1 / 4 + 3 * (ε + 1 / N) := by
  have hc := C91_covariance h hz hN hε hτ hd ho hi hi hp hp hpl hph hpl hph
  simp only [← pow_two] at hc
  have h2 := (abs_le.mp hc).2
  have h3 := variance_le p
  rw [comoment_self] at hc
  exact ⟨hc, by linarith⟩

/-- C91. The same over all 2^64 values the generator can return, each equally often (C68_tempering_bijective). -/
theorem C91_generator_covariance {m0s ms : Nat → Mem} (h : QArgs c.threads x dtIn dtOut n) (hz : Zp32 zp)
    (hd : ∀ i, i < n → (scaled (elem dtIn x.data 0 i) scale).isFin = true ∧ |(scaled (elem dtIn x.data 0 i) scale).toRat| ≤ 2 ^ 62)
    (ho : ∀ w, w < 2 ^ 64 → Outcome (quantize c x dtIn o (bytes dtOut.bits n) dtOut scale zp .stochastic (thresholdOf w)) (span o (bytes dtOut.bits n)) (m0s w) (ms w))
    {i j : Nat} {p q : ℚ} (hi : i < n) (hj : j < n)
    (hp : (scaled (elem dtIn x.data 0 i) scale).toRat = p) (hq : (scaled (elem dtIn x.data 0 j) scale).toRat = q)
    (hpl : 0 ≤ ⌊p⌋ + zp) (hph : ⌈p⌉ + zp ≤ 2 ^ dtOut.bits - 1) (hql : 0 ≤ ⌊q⌋ + zp) (hqh : ⌈q⌉ + zp ≤ 2 ^ dtOut.bits - 1) :
    |(∑ w ∈ Finset.range (2 ^ 64), ((code dtOut.bits (ms w) o i : ℤ) - zp - p : ℚ) * ((code dtOut.bits (ms w) o j : ℤ) - zp - q : ℚ)) / 2 ^ 64 - comoment p q| ≤
      3 * (1 / 2 ^ 24 + 1 / 2 ^ 64) := by
  have hN : ∃ N : Nat, N = 2 ^ 64 := ⟨_, rfl⟩
  obtain ⟨N, hN⟩ := hN
  have hq2 : (2 : ℚ) ^ 64 = (N : ℚ) := by rw [hN]; push_cast; rfl
  have h0 : 0 < N := by rw [hN]; exact Nat.two_pow_pos 64
  have ht : ∀ w, w < N → (thresholdOf w).isFin = true ∧ 0 ≤ (thresholdOf w).toRat ∧ |(thresholdOf w).toRat - w / N| ≤ 1 / 2 ^ 24 := by
    intro w hw
    obtain ⟨h1, h2, -, h4, -⟩ := threshold_val (hN ▸ hw)
    rw [hq2] at h4
    exact ⟨h1, h2, h4⟩
  rw [← hN] at ho ⊢
  rw [hq2]
  exact C91_covariance (τs := thresholdOf) (m0s := m0s) (ms := ms) h hz h0 (by positivity) ht hd ho hi hj hp hq hpl hph hql hqh

/-- C91. Nearest rounding is never worse: its squared error is at most the expected squared error `f * (1 - f)` of stochastic
rounding, for every element that does not saturate, except at the float just below one half. -/
theorem C91_nearest_never_worse (h : QArgs c.threads x dtIn dtOut n) (hz : |zp| ≤ 2 ^ 22)
    (hd : ∀ i, i < n → Fits 32 (scaled (elem dtIn x.data 0 i) scale) zp) :
    Always NoFault (quantize c x dtIn o (bytes dtOut.bits n) dtOut scale zp .nearest τ) (span o (bytes dtOut.bits n)) m0
      (fun m => ∀ i p, i < n → (scaled (elem dtIn x.data 0 i) scale).toRat = p → 0 ≤ ⌊p⌋ + zp → ⌈p⌉ + zp ≤ 2 ^ dtOut.bits - 1 → |p| ≠ predHalf →
        ((code dtOut.bits m o i : ℤ) - zp - p : ℚ) ^ 2 ≤ |p - rtz p| * (1 - |p - rtz p|)) := by
  refine (C07_vector_nearest h hz hd).mono (fun _ h => h) (fun m hm i p hi hp hl hh hne => ?_)
  have hc := hm i hi
  rw [hp] at hc
  have hc := hc.resolve_right (fun h => hne h.1)
  have hr : rha p = rtz p ∧ |p - rtz p| < 1 / 2 ∨ rha p = rtz p + (if p < 0 then -1 else 1) ∧ 1 / 2 ≤ |p - rtz p| := by
    rcases lt_or_ge p 0 with hp | hp
    · have e : |p - rtz p| = -p - ⌊-p⌋ := by
        rw [rtz_neg' hp]; push_cast
        rw [abs_of_nonpos (by linarith [Int.floor_le (-p)])]; ring
      rw [e, if_pos hp, rtz_neg' hp]
      unfold rha
      rw [if_pos hp]
      rcases lt_or_ge (-p - ⌊-p⌋) (1 / 2) with h1 | h1
      · left
        refine ⟨?_, h1⟩
        rw [neg_inj, Int.floor_eq_iff]
        exact ⟨by linarith [Int.floor_le (-p)], by linarith⟩
      · right
        refine ⟨?_, h1⟩
        have : ⌊-p + 1 / 2⌋ = ⌊-p⌋ + 1 := by
          rw [Int.floor_eq_iff]; push_cast
          exact ⟨by linarith, by linarith [Int.lt_floor_add_one (-p)]⟩
        rw [this]; ring
    · have e : |p - rtz p| = p - ⌊p⌋ := by
        rw [rtz_nonneg hp]
        exact abs_of_nonneg (by linarith [Int.floor_le p])
      rw [e, if_neg (not_lt.mpr hp), rtz_nonneg hp]
      unfold rha
      rw [if_neg (not_lt.mpr hp)]
      rcases lt_or_ge (p - ⌊p⌋) (1 / 2) with h1 | h1
      · left
        refine ⟨?_, h1⟩
        rw [Int.floor_eq_iff]
        exact ⟨by linarith [Int.floor_le p], by linarith⟩
      · right
        refine ⟨?_, h1⟩
        rw [Int.floor_eq_iff]; push_cast
        exact ⟨by linarith, by linarith [Int.lt_floor_add_one p]⟩
  have hb := sround_bounds (τ := 0) (p := p) le_rfl
  have hb1 := sround_bounds (τ := 1) (p := p) (by norm_num)
  obtain ⟨f0, f1, fe⟩ := frac_facts p
  have hn : ⌊p⌋ ≤ rha p ∧ rha p ≤ ⌈p⌉ := by
    rcases hr with ⟨e, -⟩ | ⟨e, hf⟩
    · have : sround 1 p = rtz p := by unfold sround; rw [if_neg (not_lt.mpr f1)]
      rw [e, ← this]; exact hb1
    · have : sround 0 p = rha p := by
        unfold sround; rw [if_pos (by linarith), e]
        split <;> ring
      rw [← this]; exact hb
  rw [sat_id (by omega) (by omega)] at hc
  have hcq : ((code dtOut.bits m o i : ℤ) - zp - p : ℚ) = (rha p : ℚ) - p := by rw [hc]; push_cast; ring
  rw [hcq]
  generalize |p - rtz p| = a at *
  rcases hr with ⟨e, ha⟩ | ⟨e, ha⟩
  · have : ((rha p : ℤ) : ℚ) - p = -((if p < 0 then -1 else 1) * a) := by rw [e]; linarith
    rw [this]
    split <;> nlinarith
  · have : ((rha p : ℤ) : ℚ) - p = (if p < 0 then -1 else 1) * (1 - a) := by
      rw [e]; push_cast
      by_cases hp : p < 0
      · rw [if_pos hp] at fe; simp only [if_pos hp]; linarith
      · rw [if_neg hp] at fe; simp only [if_neg hp]; linarith
    rw [this]
    split <;> nlinarith

/-- C91, ideal threshold: if the threshold is uniform on `[0,1)` (Lebesgue), the expected product of the errors is exactly
`±(min f g - f * g)`; for `q = p` it is the variance `f * (1 - f)`. -/
theorem C91_uniform_covariance (p q : ℚ) :
    ∫ t in (0:ℝ)..1, ((if t < ((|p - rtz p| : ℚ) : ℝ) then ((rtz p + (if p < 0 then -1 else 1) : ℤ) : ℝ) else ((rtz p : ℤ) : ℝ)) - p) *
      ((if t < ((|q - rtz q| : ℚ) : ℝ) then ((rtz q + (if q < 0 then -1 else 1) : ℤ) : ℝ) else ((rtz q : ℤ) : ℝ)) - q) = ((comoment p q : ℚ) : ℝ) := by
  -- the integral of the indicator of `t < a`
  have ind : ∀ a : ℚ, 0 ≤ a → a ≤ 1 → IntervalIntegrable (fun t : ℝ => if t < ((a : ℚ) : ℝ) then (1 : ℝ) else 0) MeasureTheory.volume 0 1 ∧
      ∫ t in (0:ℝ)..1, (if t < ((a : ℚ) : ℝ) then (1 : ℝ) else 0) = a := by
    intro a f0 f1
    have ha0 : (0:ℝ) ≤ ((a : ℚ) : ℝ) := by exact_mod_cast f0
    have ha1 : ((a : ℚ) : ℝ) ≤ 1 := by exact_mod_cast f1
    have i1 : ∫ t in (0:ℝ)..(a:ℝ), (if t < ((a : ℚ) : ℝ) then (1:ℝ) else 0) = a := by
      rw [intervalIntegral.integral_of_le ha0, MeasureTheory.integral_Ioc_eq_integral_Ioo]
      rw [MeasureTheory.setIntegral_congr_fun (g := fun _ => (1:ℝ)) measurableSet_Ioo (fun t ht => by simp only; rw [if_pos ht.2])]
      simp [ha0]
    have i2 : ∫ t in (a:ℝ)..1, (if t < ((a : ℚ) : ℝ) then (1:ℝ) else 0) = 0 := by
      rw [intervalIntegral.integral_of_le ha1]
      rw [MeasureTheory.setIntegral_congr_fun (g := fun _ => (0:ℝ)) measurableSet_Ioc (fun t ht => by simp only; rw [if_neg (not_lt.mpr ht.1.le)])]
      simp
    have ii1 : IntervalIntegrable (fun t => if t < ((a : ℚ) : ℝ) then (1:ℝ) else 0) MeasureTheory.volume 0 a := by
      rw [intervalIntegrable_iff_integrableOn_Ioo_of_le ha0]
      exact (MeasureTheory.integrableOn_congr_fun (g := fun _ => (1:ℝ)) (fun t ht => by simp only; rw [if_pos ht.2]) measurableSet_Ioo).mpr (by simp)
    have ii2 : IntervalIntegrable (fun t => if t < ((a : ℚ) : ℝ) then (1:ℝ) else 0) MeasureTheory.volume a 1 := by
      rw [intervalIntegrable_iff_integrableOn_Ioc_of_le ha1]
      exact (MeasureTheory.integrableOn_congr_fun (g := fun _ => (0:ℝ)) (fun t ht => by simp only; rw [if_neg (not_lt.mpr ht.1.le)]) measurableSet_Ioc).mpr (by simp)
    exact ⟨ii1.trans ii2, by rw [← intervalIntegral.integral_add_adjacent_intervals ii1 ii2, i1, i2, add_zero]⟩
  -- the error of one element
  have err : ∀ (p : ℚ) (t : ℝ), (if t < ((|p - rtz p| : ℚ) : ℝ) then ((rtz p + (if p < 0 then -1 else 1) : ℤ) : ℝ) else ((rtz p : ℤ) : ℝ)) - p =
      (if p < 0 then -1 else 1) * ((if t < ((frac p : ℚ) : ℝ) then 1 else 0) - ((frac p : ℚ) : ℝ)) := by
    intro p t
    obtain ⟨-, -, fe⟩ := frac_facts p
    have fe := congrArg (fun q : ℚ => (q:ℝ)) fe
    unfold frac
    generalize |p - rtz p| = a at *
    by_cases hp : p < 0
    · simp only [if_pos hp] at fe ⊢
      push_cast at fe
      by_cases ht : t < (a : ℝ)
      · rw [if_pos ht, if_pos ht]; push_cast; linarith
      · rw [if_neg ht, if_neg ht]; linarith
    · simp only [if_neg hp] at fe ⊢
      push_cast at fe
      by_cases ht : t < (a : ℝ)
      · rw [if_pos ht, if_pos ht]; push_cast; linarith
      · rw [if_neg ht, if_neg ht]; linarith
  obtain ⟨f0, f1⟩ := frac_range p
  obtain ⟨g0, g1⟩ := frac_range q
  obtain ⟨ip, vp⟩ := ind _ f0 f1
  obtain ⟨iq, vq⟩ := ind _ g0 g1
  obtain ⟨im, vm⟩ := ind (min (frac p) (frac q)) (le_min f0 g0) ((min_le_left _ _).trans f1)
  have hs : (if (p < 0 ↔ q < 0) then (1 : ℝ) else -1) = (if p < 0 then -1 else 1) * (if q < 0 then -1 else 1) := by
    by_cases h1 : p < 0 <;> by_cases h2 : q < 0 <;> simp [h1, h2]
  have e : ∀ t : ℝ, ((if t < ((|p - rtz p| : ℚ) : ℝ) then ((rtz p + (if p < 0 then -1 else 1) : ℤ) : ℝ) else ((rtz p : ℤ) : ℝ)) - p) *
      ((if t < ((|q - rtz q| : ℚ) : ℝ) then ((rtz q + (if q < 0 then -1 else 1) : ℤ) : ℝ) else ((rtz q : ℤ) : ℝ)) - q) =
      (if (p < 0 ↔ q < 0) then (1 : ℝ) else -1) * ((((if t < ((min (frac p) (frac q) : ℚ) : ℝ) then 1 else 0) - (frac q : ℝ) * (if t < ((frac p : ℚ) : ℝ) then 1 else 0)) -
        (frac p : ℝ) * (if t < ((frac q : ℚ) : ℝ) then 1 else 0)) + (frac p : ℝ) * (frac q : ℝ)) := by
    intro t
    rw [err p t, err q t, hs]
    have hind : (if t < ((min (frac p) (frac q) : ℚ) : ℝ) then (1 : ℝ) else 0) =
        (if t < ((frac p : ℚ) : ℝ) then 1 else 0) * (if t < ((frac q : ℚ) : ℝ) then 1 else 0) := by
      have : (t < ((min (frac p) (frac q) : ℚ) : ℝ)) ↔ (t < ((frac p : ℚ) : ℝ) ∧ t < ((frac q : ℚ) : ℝ)) := by
        push_cast; exact lt_min_iff
      by_cases h1 : t < ((frac p : ℚ) : ℝ) <;> by_cases h2 : t < ((frac q : ℚ) : ℝ) <;> simp only [this, h1, h2] <;> simp
    rw [hind]
    ring
  simp only [e]
  have iq' := iq.const_mul ((frac p : ℚ) : ℝ)
  have ip' := ip.const_mul ((frac q : ℚ) : ℝ)
  rw [intervalIntegral.integral_const_mul, intervalIntegral.integral_add ((im.sub ip').sub iq') intervalIntegrable_const,
    intervalIntegral.integral_sub (im.sub ip') iq', intervalIntegral.integral_sub im ip', intervalIntegral.integral_const_mul, intervalIntegral.integral_const_mul,
    vm, vp, vq, intervalIntegral.integral_const]
  unfold comoment
  by_cases h : (p < 0 ↔ q < 0)
  · rw [if_pos h, if_pos h]; push_cast; simp; ring
  · rw [if_neg h, if_neg h]; push_cast; simp; ring

/-! ## C92 -/

/-- C92. All elements of a tensor equal, one stochastic call, any number of elements and workers: the mean of the codes less the
zero point misses the scaled value by the fraction or by one minus the fraction, however many elements there are. -/
theorem C92_equal_elements_do_not_average_partial (h : QArgs c.threads x dtIn dtOut n) (hz : Zp32 zp) (hτ : τ.isFin = true) (hτ0 : 0 ≤ τ.toRat)
    (hd : ∀ i, i < n → (scaled (elem dtIn x.data 0 i) scale).isFin = true ∧ |(scaled (elem dtIn x.data 0 i) scale).toRat| ≤ 2 ^ 62)
    {p : ℚ} (hp : ∀ i, i < n → (scaled (elem dtIn x.data 0 i) scale).toRat = p) (hn : 0 < n) (hpl : 0 ≤ ⌊p⌋ + zp) (hph : ⌈p⌉ + zp ≤ 2 ^ dtOut.bits - 1) :
    Always NoFault (quantize c x dtIn o (bytes dtOut.bits n) dtOut scale zp .stochastic τ) (span o (bytes dtOut.bits n)) m0
      (fun m => |(∑ i ∈ Finset.range n, ((code dtOut.bits m o i : ℤ) - zp : ℚ)) / n - p| = if τ.toRat < |p - rtz p| then 1 - |p - rtz p| else |p - rtz p|) := by
  obtain ⟨js, e, g⟩ := quantize_vals (mode := .stochastic) (τ := τ) (m0 := m0) (o := o) h hz (fun i hi => ⟨(hd i hi).1, (hd i hi).2, hτ, hτ0⟩)
    (Or.inl (Or.inr (Or.inr (Or.inl rfl))))
  refine ⟨js, e, g.safe, g.raceFree, g.progress, g.bounded, fun k d hr hdn => ?_⟩
  have hq := g.post k d hr hdn
  have hb := sround_bounds (τ := τ.toRat) (p := p) hτ0
  have hcode : ∀ i ∈ Finset.range n, ((code dtOut.bits d.mem o i : ℤ) - zp : ℚ) = ((sround τ.toRat p : ℤ) : ℚ) := by
    intro i hi
    have hi := Finset.mem_range.mp hi
    have hq := (hq.1 i hi).resolve_right (fun h => h.1 (Or.inr (Or.inr (Or.inl rfl))))
    rw [hp i hi] at hq
    have he : (code dtOut.bits d.mem o i : ℤ) = sround τ.toRat p + zp := by
      rw [hq]; exact sat_id (show 0 ≤ sround _ _ + zp by omega) (show sround _ _ + zp ≤ _ by omega)
    rw [he]; push_cast; ring
  rw [Finset.sum_congr rfl hcode, Finset.sum_const, Finset.card_range, nsmul_eq_mul, mul_comm, mul_div_assoc,
    div_self (by exact_mod_cast hn.ne'), mul_one, sround_err, abs_mul]
  obtain ⟨f0, f1⟩ := frac_range p
  have hs : |(if p < 0 then (-1 : ℚ) else 1)| = 1 := by split <;> simp
  rw [hs, one_mul]
  change |(if τ.toRat < frac p then (1:ℚ) else 0) - frac p| = if τ.toRat < frac p then 1 - frac p else frac p
  split
  · exact abs_of_nonneg (by linarith)
  · rw [zero_sub, abs_neg, abs_of_nonneg f0]

/-- `n` floats 0.5. -/
def halves (n : Nat) : InBuf := ⟨4 * n, fun a => if a % 4 = 3 then 0x3f else 0⟩

theorem halves_elem (n i : Nat) : elem .f32 (halves n).data 0 i = ⟨false, 0x3f000000⟩ := by
  have h0 : (0 + 4 * i) % 4 ≠ 3 := by omega
  have h1 : (0 + 4 * i + 1) % 4 ≠ 3 := by omega
  have h2 : (0 + 4 * i + 2) % 4 ≠ 3 := by omega
  have h3 : (0 + 4 * i + 3) % 4 = 3 := by omega
  unfold elem f32At halves
  simp only [if_neg h0, if_neg h1, if_neg h2, if_pos h3]
  decide +kernel

/-- C92 is false: for every number of elements there is a tensor (all elements 0.5, scale 1) whose mean is missed by one half of
a step by every stochastic call, whatever the threshold: the errors of the elements of a call are the same, not independent. -/
theorem C92_false_averages_out (hout : dtOut.isQuant = true) (hs : Sizes n c.threads) (hn : 0 < n) (hτ : τ.isFin = true) (hτ0 : 0 ≤ τ.toRat)
    (hzl : 0 ≤ zp) (hzh : zp + 1 ≤ 2 ^ dtOut.bits - 1) :
    Always NoFault (quantize c (halves n) .f32 o (bytes dtOut.bits n) dtOut ⟨false, 0x3f800000⟩ zp .stochastic τ) (span o (bytes dtOut.bits n)) m0
      (fun m => |(∑ i ∈ Finset.range n, ((code dtOut.bits m o i : ℤ) - zp : ℚ)) / n -
        (∑ i ∈ Finset.range n, (elem .f32 (halves n).data 0 i).toRat) / n| = 1 / 2) := by
  have hv : (scaled (⟨false, 0x3f000000⟩ : F32) ⟨false, 0x3f800000⟩).isFin = true ∧ (scaled (⟨false, 0x3f000000⟩ : F32) ⟨false, 0x3f800000⟩).toRat = 1 / 2 := by decide +kernel
  have hw : (⟨false, 0x3f000000⟩ : F32).toRat = 1 / 2 := by decide +kernel
  have hb : (2:ℤ) ^ dtOut.bits - 1 ≤ 255 := by cases dtOut <;> simp only [DType.isQuant, Bool.false_eq_true] at hout <;> norm_num [DType.bits]
  have hz : Zp32 zp := by constructor <;> norm_num <;> omega
  have hr : |(1 / 2 : ℚ) - rtz (1 / 2)| = 1 / 2 := by decide +kernel
  have hmean : (∑ i ∈ Finset.range n, (elem .f32 (halves n).data 0 i).toRat) / n = 1 / 2 := by
    rw [Finset.sum_congr rfl (fun i _ => by rw [halves_elem, hw]), Finset.sum_const, Finset.card_range, nsmul_eq_mul, mul_div_right_comm,
      div_self (by exact_mod_cast hn.ne'), one_mul]
  have hfl : ⌊(1 / 2 : ℚ)⌋ = 0 := by decide +kernel
  have hce : ⌈(1 / 2 : ℚ)⌉ = 1 := by decide +kernel
  refine (C92_equal_elements_do_not_average_partial (x := halves n) (dtIn := .f32) (p := 1 / 2) ⟨rfl, hout, rfl, hs⟩ hz hτ hτ0 (fun i _ => ?_) (fun i _ => ?_) hn
    (by rw [hfl]; omega) (by rw [hce]; omega)).mono (fun _ h => h) (fun m hm => ?_)
  · rw [halves_elem, hv.2]; exact ⟨hv.1, by norm_num⟩
  · rw [halves_elem]; exact hv.2
  · rw [hmean, hm, hr]
    split <;> norm_num

/-- C92. The squared error of the sum over a tensor, averaged over thresholds near the uniform grid, is the sum of the second
moments of all pairs of elements, up to `3 * n² * (ε + 1/N)`; if the scaled values have the same sign it is therefore not below
the sum of the variances: errors of a call add up at least as fast as independent ones. -/
theorem C92_squared_error_of_sum_partial {N : Nat} {ε : ℚ} {τs : Nat → F32} {m0s ms : Nat → Mem} (h : QArgs c.threads x dtIn dtOut n) (hz : Zp32 zp)
    (hN : 0 < N) (hε : 0 ≤ ε) (hτ : ∀ k, k < N → (τs k).isFin = true ∧ 0 ≤ (τs k).toRat ∧ |(τs k).toRat - k / N| ≤ ε)
    (hd : ∀ i, i < n → (scaled (elem dtIn x.data 0 i) scale).isFin = true ∧ |(scaled (elem dtIn x.data 0 i) scale).toRat| ≤ 2 ^ 62)
    (ho : ∀ k, k < N → Outcome (quantize c x dtIn o (bytes dtOut.bits n) dtOut scale zp .stochastic (τs k)) (span o (bytes dtOut.bits n)) (m0s k) (ms k))
    {p : Nat → ℚ} (hp : ∀ i, i < n → (scaled (elem dtIn x.data 0 i) scale).toRat = p i)
    (hr : ∀ i, i < n → 0 ≤ ⌊p i⌋ + zp ∧ ⌈p i⌉ + zp ≤ 2 ^ dtOut.bits - 1) :
    |(∑ k ∈ Finset.range N, (∑ i ∈ Finset.range n, ((code dtOut.bits (ms k) o i : ℤ) - zp - p i : ℚ)) ^ 2) / N -
      ∑ i ∈ Finset.range n, ∑ j ∈ Finset.range n, comoment (p i) (p j)| ≤ 3 * n ^ 2 * (ε + 1 / N) ∧
    ((∀ i j, i < n → j < n → (p i < 0 ↔ p j < 0)) →
      (∑ i ∈ Finset.range n, |p i - rtz (p i)| * (1 - |p i - rtz (p i)|)) - 3 * n ^ 2 * (ε + 1 / N) ≤
        (∑ k ∈ Finset.range N, (∑ i ∈ Finset.range n, ((code dtOut.bits (ms k) o i : ℤ) - zp - p i : ℚ)) ^ 2) / N) := by
  have hN' : (0:ℚ) < N := by exact_mod_cast hN
  have e : (∑ k ∈ Finset.range N, (∑ i ∈ Finset.range n, ((code dtOut.bits (ms k) o i : ℤ) - zp - p i : ℚ)) ^ 2) / N =
      ∑ i ∈ Finset.range n, ∑ j ∈ Finset.range n,
        (∑ k ∈ Finset.range N, ((code dtOut.bits (ms k) o i : ℤ) - zp - p i : ℚ) * ((code dtOut.bits (ms k) o j : ℤ) - zp - p j : ℚ)) / N := by
    simp only [← Finset.sum_div]
    congr 1
    simp only [pow_two, Finset.sum_mul_sum]
    rw [Finset.sum_comm]
    apply Finset.sum_congr rfl
    intro i _
    rw [Finset.sum_comm]
  have main : |(∑ k ∈ Finset.range N, (∑ i ∈ Finset.range n, ((code dtOut.bits (ms k) o i : ℤ) - zp - p i : ℚ)) ^ 2) / N -
      ∑ i ∈ Finset.range n, ∑ j ∈ Finset.range n, comoment (p i) (p j)| ≤ 3 * n ^ 2 * (ε + 1 / N) := by
    rw [e, ← Finset.sum_sub_distrib]
    simp only [← Finset.sum_sub_distrib]
    refine (Finset.abs_sum_le_sum_abs _ _).trans ?_
    have hrow : ∀ i ∈ Finset.range n, |∑ j ∈ Finset.range n,
        ((∑ k ∈ Finset.range N, ((code dtOut.bits (ms k) o i : ℤ) - zp - p i : ℚ) * ((code dtOut.bits (ms k) o j : ℤ) - zp - p j : ℚ)) / N - comoment (p i) (p j))| ≤
        n * (3 * (ε + 1 / N)) := by
      intro i hi
      have hi := Finset.mem_range.mp hi
      refine (Finset.abs_sum_le_sum_abs _ _).trans ?_
      refine (Finset.sum_le_card_nsmul (Finset.range n) _ (3 * (ε + 1 / N)) (fun j hj => ?_)).trans (by rw [Finset.card_range, nsmul_eq_mul])
      have hj := Finset.mem_range.mp hj
      exact C91_covariance h hz hN hε hτ hd ho hi hj (hp i hi) (hp j hj) (hr i hi).1 (hr i hi).2 (hr j hj).1 (hr j hj).2
    refine (Finset.sum_le_card_nsmul (Finset.range n) _ _ hrow).trans ?_
    rw [Finset.card_range, nsmul_eq_mul]
    apply le_of_eq
    ring
  refine ⟨main, fun hs => ?_⟩
  have hge : (∑ i ∈ Finset.range n, |p i - rtz (p i)| * (1 - |p i - rtz (p i)|)) ≤ ∑ i ∈ Finset.range n, ∑ j ∈ Finset.range n, comoment (p i) (p j) := by
    apply Finset.sum_le_sum
    intro i hi
    have e : |p i - rtz (p i)| * (1 - |p i - rtz (p i)|) = comoment (p i) (p i) := (comoment_self _).symm
    rw [e]
    exact Finset.single_le_sum (f := fun j => comoment (p i) (p j))
      (fun j hj => comoment_nonneg (hs i j (Finset.mem_range.mp hi) (Finset.mem_range.mp hj))) hi
  have := (abs_le.mp main).1
  linarith

end

/-! ## Concrete cases -/

/-- Four thresholds 0, 1/4, 1/2, 3/4, and an outcome of a call with each of them on seventy floats. -/
theorem four_outcomes : ∃ ms : Nat → Mem, ∀ k, k < 4 → Outcome (quantize Ex.c1 Ex.many .f32 1000 (bytes DType.uint8.bits 70) .uint8 Ex.tenth 64 .stochastic (quarters k))
    (span 1000 (bytes DType.uint8.bits 70)) Ex.old (ms k) := by
  have ho : ∀ k : Nat, ∃ m, k < 4 → Outcome (quantize Ex.c1 Ex.many .f32 1000 (bytes DType.uint8.bits 70) .uint8 Ex.tenth 64 .stochastic (quarters k))
      (span 1000 (bytes DType.uint8.bits 70)) Ex.old m := by
    intro k
    by_cases hk : k < 4
    · have h1 : ∀ k, k < 4 → (quarters k).isFin = true ∧ 0 ≤ (quarters k).toRat := by decide +kernel
      obtain ⟨m, hm⟩ := always_outcome (C17_stochastic_neighbours (c := Ex.c1) (x := Ex.many) (dtIn := .f32) (dtOut := .uint8) (n := 70) (o := 1000) (m0 := Ex.old)
        (scale := Ex.tenth) (zp := 64) (by wit) (by decide) (h1 k hk).1 (h1 k hk).2 (by wit))
      exact ⟨m, fun _ => hm⟩
    · exact ⟨Ex.old, fun h => absurd h hk⟩
  choose ms hm using ho
  exact ⟨ms, hm⟩

/-- The hypotheses of C91 and C92 are met: elements 3 and 6 of the seventy floats, four thresholds. -/
example : ∃ ms : Nat → Mem, |(∑ k ∈ Finset.range 4, ((code 8 (ms k) 1000 3 : ℤ) - (64 : ℤ) - (scaled (elem .f32 Ex.many.data 0 3) Ex.tenth).toRat : ℚ) *
    ((code 8 (ms k) 1000 6 : ℤ) - (64 : ℤ) - (scaled (elem .f32 Ex.many.data 0 6) Ex.tenth).toRat : ℚ)) / (4 : Nat) -
    comoment (scaled (elem .f32 Ex.many.data 0 3) Ex.tenth).toRat (scaled (elem .f32 Ex.many.data 0 6) Ex.tenth).toRat| ≤ 3 * (0 + 1 / (4 : Nat)) := by
  obtain ⟨ms, hm⟩ := four_outcomes
  exact ⟨ms, C91_covariance (dtOut := .uint8) (N := 4) (ε := 0) (τs := quarters) (m0s := fun _ => Ex.old) (i := 3) (j := 6) (n := 70) (by wit) (by decide) (by decide) le_rfl
    (by decide +kernel) (by wit) hm (by decide) (by decide) rfl rfl (by decide +kernel) (by decide +kernel) (by decide +kernel) (by decide +kernel)⟩

example : ∃ ms : Nat → Mem, (∑ k ∈ Finset.range 4, ((code 8 (ms k) 1000 3 : ℤ) - (64 : ℤ) - (scaled (elem .f32 Ex.many.data 0 3) Ex.tenth).toRat : ℚ) ^ 2) / (4 : Nat) ≤
    1 / 4 + 3 * (0 + 1 / (4 : Nat)) := by
  obtain ⟨ms, hm⟩ := four_outcomes
  exact ⟨ms, (C91_mean_squared_error (dtOut := .uint8) (N := 4) (ε := 0) (τs := quarters) (m0s := fun _ => Ex.old) (i := 3) (n := 70) (by wit) (by decide) (by decide) le_rfl
    (by decide +kernel) (by wit) hm (by decide) rfl (by decide +kernel) (by decide +kernel)).2⟩

example : ∃ ms : Nat → Mem, |(∑ k ∈ Finset.range 4, (∑ i ∈ Finset.range 70, ((code 8 (ms k) 1000 i : ℤ) - (64 : ℤ) - (scaled (elem .f32 Ex.many.data 0 i) Ex.tenth).toRat : ℚ)) ^ 2) / (4 : Nat) -
    ∑ i ∈ Finset.range 70, ∑ j ∈ Finset.range 70, comoment (scaled (elem .f32 Ex.many.data 0 i) Ex.tenth).toRat (scaled (elem .f32 Ex.many.data 0 j) Ex.tenth).toRat| ≤
    3 * (70 : Nat) ^ 2 * (0 + 1 / (4 : Nat)) := by
  obtain ⟨ms, hm⟩ := four_outcomes
  exact ⟨ms, (C92_squared_error_of_sum_partial (dtOut := .uint8) (N := 4) (ε := 0) (τs := quarters) (m0s := fun _ => Ex.old) (n := 70)
    (p := fun i => (scaled (elem .f32 Ex.many.data 0 i) Ex.tenth).toRat) (by wit) (by decide) (by decide) le_rfl
    (by decide +kernel) (by wit) hm (fun _ _ => rfl) (by decide +kernel)).1⟩

/-- Every value of the generator, and an outcome of a call with the threshold drawn from it. -/
example : ∃ ms : Nat → Mem, |(∑ w ∈ Finset.range (2 ^ 64), ((code 8 (ms w) 1000 3 : ℤ) - (64 : ℤ) - (scaled (elem .f32 Ex.many.data 0 3) Ex.tenth).toRat : ℚ) *
    ((code 8 (ms w) 1000 6 : ℤ) - (64 : ℤ) - (scaled (elem .f32 Ex.many.data 0 6) Ex.tenth).toRat : ℚ)) / 2 ^ 64 -
    comoment (scaled (elem .f32 Ex.many.data 0 3) Ex.tenth).toRat (scaled (elem .f32 Ex.many.data 0 6) Ex.tenth).toRat| ≤ 3 * (1 / 2 ^ 24 + 1 / 2 ^ 64) := by
  have ho : ∀ w : Nat, ∃ m, w < 2 ^ 64 → Outcome (quantize Ex.c1 Ex.many .f32 1000 (bytes DType.uint8.bits 70) .uint8 Ex.tenth 64 .stochastic (thresholdOf w))
      (span 1000 (bytes DType.uint8.bits 70)) Ex.old m := by
    intro w
    by_cases hw : w < 2 ^ 64
    · obtain ⟨h1, h2, _⟩ := threshold_val hw
      obtain ⟨m, hm⟩ := always_outcome (C17_stochastic_neighbours (c := Ex.c1) (x := Ex.many) (dtIn := .f32) (dtOut := .uint8) (n := 70) (o := 1000) (m0 := Ex.old)
        (scale := Ex.tenth) (zp := 64) (by wit) (by decide) h1 h2 (by wit))
      exact ⟨m, fun _ => hm⟩
    · exact ⟨Ex.old, fun h => absurd h hw⟩
  choose ms hm using ho
  exact ⟨ms, C91_generator_covariance (dtOut := .uint8) (m0s := fun _ => Ex.old) (n := 70) (by wit) (by decide) (by wit) hm (by decide) (by decide) rfl rfl
    (by decide +kernel) (by decide +kernel) (by decide +kernel) (by decide +kernel)⟩

/-- `C91_nearest_never_worse` applied to a concrete case. -/
example := C91_nearest_never_worse (c := Ex.c1) (x := Ex.many) (dtIn := .f32) (dtOut := .uint8) (n := 70) (o := 1000) (scale := Ex.tenth) (τ := Ex.quarter)
    (zp := 64) (m0 := Ex.old) (h := by wit) (hz := by wit) (hd := by wit)

/-- The scaled values 2.3 and -2.6: fractions 0.3 and 0.6, second moment -(0.3 - 0.18), variances 0.21 and 0.24. -/
example : comoment (23 / 10) (-26 / 10) = -12 / 100 ∧ comoment (23 / 10) (23 / 10) = 21 / 100 ∧ comoment (-26 / 10) (-26 / 10) = 24 / 100 := by decide +kernel

/-- A thousand elements, three workers, AVX-512, threshold 0.25. -/
example := C92_false_averages_out (c := Ex.c1) (dtOut := .uint4) (n := 1000) (o := 1000) (τ := Ex.quarter) (zp := 7) (m0 := Ex.old) rfl (sz 1000 3) (by decide)
    (by decide +kernel) (by decide +kernel) (by decide) (by decide)

/-- Five equal floats on two workers. -/
example := C92_equal_elements_do_not_average_partial (c := Ex.c2) (x := halves 5) (dtIn := .f32) (dtOut := .uint8) (n := 5) (o := 1000) (scale := ⟨false, 0x40400000⟩) (τ := Ex.quarter)
    (zp := 64) (m0 := Ex.old) (p := (scaled (elem .f32 (halves 5).data 0 0) ⟨false, 0x40400000⟩).toRat) ⟨rfl, rfl, rfl, sz 5 2⟩ (by decide) (by decide +kernel) (by decide +kernel)
    (by decide +kernel) (by decide +kernel) (by decide) (by decide +kernel) (by decide +kernel)

end Verif.Props
