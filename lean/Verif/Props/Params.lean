import Verif.Proofs.ParamsNan
import Verif.Props.Examples

/-!
# Parameters computed from data: C20–C24, C37, C41

`computeQuantConfigFromData isa ft x blocks dt` is `compute_quant_config_from_data` on the floats in
`x` (float32 or bf16) for target type `dt`, on kernel set `isa`, when the thread pool splits the data
into `blocks`.
-/

namespace Verif.Props
open Spec

variable {isa isa' : Isa} {ft : FT} {x : InBuf} {n : Nat} {blocks blocks' : List (Nat × Nat)} {dt : DType}

/-- Decidable test of a result. -/
def retIs (r : F32 × ℤ) : Prog (F32 × ℤ) → Bool
  | .ret q => q = r
  | _ => false
theorem retIs_iff {r : F32 × ℤ} {p : Prog (F32 × ℤ)} (h : retIs r p = true) : p = .ret r := by
  unfold retIs at h
  split at h
  · simp only [decide_eq_true_eq] at h; rw [h]
  · cases h

/-- Decidable test of a failure. -/
def failIs (f : Fault) : Prog (F32 × ℤ) → Bool
  | .fail g => g = f
  | _ => false
theorem failIs_iff {f : Fault} {p : Prog (F32 × ℤ)} (h : failIs f p = true) : p = .fail f := by
  unfold failIs at h
  split at h
  · simp only [decide_eq_true_eq] at h; rw [h]
  · cases h

theorem small_of (h : SseSmall isa ft blocks) : isa = .sse42 → ∀ b ∈ blocks, mmSmall ft (b.2 - b.1) := by
  intro hi b hb
  have := h hi b hb
  cases ft <;> exact this

theorem fin_elem (h : AllFin ft x n) : ∀ t, t < n → (x.elem ft 0 t).isFin = true := fun t ht => by rw [elem_spec]; exact h t ht

/-! ## C22 -/

/-- The hypotheses determine the range: finite non-empty data has a minimum and a maximum. -/
theorem range_exists (hn : 0 < n) : ∃ lo hi, Range ft.dtype x.data n lo hi := by
  have key : ∀ m, 0 < m → ∃ lo hi, Range ft.dtype x.data m lo hi := by
    intro m
    induction m with
    | zero => intro h; omega
    | succ m ih =>
      intro _
      rcases Nat.eq_zero_or_pos m with rfl | hm
      · refine ⟨_, _, ⟨⟨0, by omega, rfl⟩, ?_⟩, ⟨⟨0, by omega, rfl⟩, ?_⟩⟩
        · rintro v ⟨t, ht, rfl⟩; rw [show t = 0 by omega]
        · rintro v ⟨t, ht, rfl⟩; rw [show t = 0 by omega]
      · obtain ⟨lo, hi, ⟨⟨a, ha, ea⟩, hlo⟩, ⟨b, hb, eb⟩, hhi⟩ := ih hm
        refine ⟨min lo (elem ft.dtype x.data 0 m).toRat, max hi (elem ft.dtype x.data 0 m).toRat, ⟨?_, ?_⟩, ?_, ?_⟩
        · rcases min_choice lo (elem ft.dtype x.data 0 m).toRat with e | e <;> rw [e]
          · exact ⟨a, by omega, ea⟩
          · exact ⟨m, by omega, rfl⟩
        · rintro v ⟨t, ht, rfl⟩
          rcases Nat.lt_or_ge t m with h | h
          · exact (min_le_left _ _).trans (hlo ⟨t, h, rfl⟩)
          · rw [show t = m by omega]; exact min_le_right _ _
        · rcases max_choice hi (elem ft.dtype x.data 0 m).toRat with e | e <;> rw [e]
          · exact ⟨b, by omega, eb⟩
          · exact ⟨m, by omega, rfl⟩
        · rintro v ⟨t, ht, rfl⟩
          rcases Nat.lt_or_ge t m with h | h
          · exact (hhi ⟨t, h, rfl⟩).trans (le_max_left _ _)
          · rw [show t = m by omega]; exact le_max_right _ _
  exact key n hn

/-- With small blocks on SSE4.2, and always on the other kernel sets, all elements count. -/
theorem sees_small (h : PArgs ft x n blocks dt) (hn : 0 < n) (hs : SseSmall isa ft blocks) : Sees isa ft x n blocks := by
  obtain ⟨lo, hi, ⟨⟨a, ha, ea⟩, hlo⟩, ⟨b, hb, eb⟩, hhi⟩ := range_exists (ft := ft) (x := x) hn
  have hall := seen_all blocks 0 h.split (small_of hs)
  exact ⟨⟨a, hall a (by omega) ha, fun u hu => by rw [← ea]; exact hlo ⟨u, hu, rfl⟩⟩, ⟨b, hall b (by omega) hb, fun u hu => by rw [← eb]; exact hhi ⟨u, hu, rfl⟩⟩⟩

/-- C22. Finite data, every way of splitting it into non-empty blocks, every kernel set: if a least and a greatest element are among
those that count (always, but on SSE4.2: `sees_small`, `C22_false_sse42`), the call returns the parameters of the true minimum and the
true maximum of the data. -/
theorem C22_true_range_partial (h : PArgs ft x n blocks dt) (hn : 0 < n) (hf : AllFin ft x n) (hs : Sees isa ft x n blocks) {lo hi : ℚ}
    (hr : Range ft.dtype x.data n lo hi) : computeQuantConfigFromData isa ft x blocks dt = .ret (params dt.bits lo hi) := by
  obtain ⟨lo', hi', ⟨hb, ⟨u, hu, eu⟩, ⟨w, hw, ew⟩⟩, h1, e⟩ := config_seen (isa := isa) h.quant h.size hn (fin_elem hf) h.split
  obtain ⟨⟨a', ha', h2⟩, ⟨b', hb', h3⟩⟩ := hs
  obtain ⟨⟨⟨a, ha, ea⟩, hlo⟩, ⟨b, hbn, eb⟩, hhi⟩ := hr
  simp only [elem_spec] at hb eu ew
  have e1 : lo' = lo := by
    apply le_antisymm
    · rw [ea]; exact (hb a' ha').1.trans (h2 a ha)
    · exact hlo ⟨u, h1 u hu, eu⟩
  have e2 : hi' = hi := by
    apply le_antisymm
    · exact hhi ⟨w, h1 w hw, ew⟩
    · rw [eb]; exact (h3 b hbn).trans (hb b' hb').2
  rw [e, e1, e2]

/-- `C22_true_range_partial` applied to a concrete case. -/
example := C22_true_range_partial (isa := .avx512f) (ft := .f32) (x := Ex.many) (n := 70) (blocks := Ex.blocks) (dt := .uint8) (h := by wit)
    (hn := by wit) (hf := by wit) (hs := by wit) (lo := (-25 / 4)) (hi := (25 / 4)) (hr := by wit)

/-- Sixteen floats: 1.0 everywhere, but -100.0 at index 3 and 100.0 at index 7. -/
def lane3 : InBuf := Ex.buf (Ex.words32 [0x3f800000, 0x3f800000, 0x3f800000, 0xc2c80000, 0x3f800000, 0x3f800000, 0x3f800000, 0x42c80000,
  0x3f800000, 0x3f800000, 0x3f800000, 0x3f800000, 0x3f800000, 0x3f800000, 0x3f800000, 0x3f800000])

/-- C22 is false on SSE4.2: the minimum and the maximum of sixteen floats are both lost when they sit
in the fourth lane of a vector; the result is the one for constant data. -/
theorem C22_false_sse42 : PArgs .f32 lane3 16 [(0, 16)] .uint8 ∧ AllFin .f32 lane3 16 ∧ Range .f32 lane3.data 16 (-100) 100 ∧
    computeQuantConfigFromData .sse42 .f32 lane3 [(0, 16)] .uint8 = .ret (f1, 127) ∧
    computeQuantConfigFromData .portable .f32 lane3 [(0, 16)] .uint8 = .ret (⟨false, 0x3f48c8c9⟩, 128) := by
  have hv : ∀ t, t < 16 → -100 ≤ (elem .f32 lane3.data 0 t).toRat ∧ (elem .f32 lane3.data 0 t).toRat ≤ 100 := by decide +kernel
  refine ⟨⟨rfl, by decide, rfl, by omega, rfl⟩, ?_, ⟨⟨⟨3, by omega, by decide +kernel⟩, ?_⟩, ⟨7, by omega, by decide +kernel⟩, ?_⟩, ?_, ?_⟩
  · unfold AllFin; decide +kernel
  · rintro v ⟨t, ht, rfl⟩; exact (hv t ht).1
  · rintro v ⟨t, ht, rfl⟩; exact (hv t ht).2
  · exact retIs_iff (by decide +kernel)
  · exact retIs_iff (by decide +kernel)

/-! ## C37 -/

/-- C37. The result does not depend on how the data is split into non-empty blocks, nor on the kernel
set (on SSE4.2 if a least and a greatest element are among those that count, see C22). -/
theorem C37_split_independent (h : PArgs ft x n blocks dt) (h' : PArgs ft x n blocks' dt) (hn : 0 < n) (hf : AllFin ft x n)
    (hs : Sees isa ft x n blocks) (hs' : Sees isa' ft x n blocks') :
    computeQuantConfigFromData isa ft x blocks dt = computeQuantConfigFromData isa' ft x blocks' dt := by
  obtain ⟨lo, hi, hr⟩ := range_exists (ft := ft) (x := x) hn
  rw [C22_true_range_partial h hn hf hs hr, C22_true_range_partial h' hn hf hs' hr]

/-- `C37_split_independent` applied to a concrete case. -/
example := C37_split_independent (isa := .avx512f) (isa' := .avx2) (ft := .f32) (x := Ex.many) (n := 70) (blocks := Ex.blocks)
    (blocks' := [(0, 15), (15, 31), (31, 70)]) (dt := .uint8) (h := by wit)
    (h' := ⟨rfl, by decide +kernel, rfl, by decide, rfl, by decide, rfl, by decide, rfl⟩) (hn := by wit) (hf := by wit) (hs := by wit)
    (hs' := sees_small (dt := .uint8) ⟨rfl, by decide +kernel, rfl, by decide, rfl, by decide, rfl, by decide, rfl⟩ (by decide) (fun h => by cases h))

/-- Two different splits of the five floats 1, -2.5, 0.3, 7.75, 100 meet the hypotheses. -/
example : PArgs .f32 Ex.xs 5 [(0, 5)] .uint4 ∧ PArgs .f32 Ex.xs 5 [(0, 2), (2, 3), (3, 5)] .uint4 ∧ AllFin .f32 Ex.xs 5 ∧
    Sees .sse42 .f32 Ex.xs 5 [(0, 5)] ∧ Sees .avx2 .f32 Ex.xs 5 [(0, 2), (2, 3), (3, 5)] := by
  refine ⟨⟨rfl, by decide, rfl, by omega, rfl⟩, ⟨rfl, by decide, rfl, by omega, rfl, by omega, rfl, by omega, rfl⟩, ?_, ?_, ?_⟩
  · unfold AllFin; decide +kernel
  · refine sees_small (dt := .uint4) ⟨rfl, by decide, rfl, by omega, rfl⟩ (by omega) ?_
    intro _ b hb; simp only [List.mem_singleton] at hb; subst hb; decide
  · exact sees_small (dt := .uint4) ⟨rfl, by decide, rfl, by omega, rfl, by omega, rfl, by omega, rfl⟩ (by omega) (fun h => by cases h)

/-- The data of `lane3` with elements 3 and 0, and 7 and 4, exchanged. -/
def lane0 : InBuf := Ex.buf (Ex.words32 [0xc2c80000, 0x3f800000, 0x3f800000, 0x3f800000, 0x42c80000, 0x3f800000, 0x3f800000, 0x3f800000,
  0x3f800000, 0x3f800000, 0x3f800000, 0x3f800000, 0x3f800000, 0x3f800000, 0x3f800000, 0x3f800000])

/-- On SSE4.2 also a block of 16 floats can meet them: here the extremes are at indices 0 and 4. -/
example : PArgs .f32 lane0 16 [(0, 16)] .uint8 ∧ AllFin .f32 lane0 16 ∧ Sees .sse42 .f32 lane0 16 [(0, 16)] := by
  refine ⟨⟨rfl, by decide, rfl, by omega, rfl⟩, ?_, ⟨0, ⟨(0, 16), by simp, by decide, by decide, fun _ => Or.inr (by decide)⟩, ?_⟩,
    ⟨4, ⟨(0, 16), by simp, by decide, by decide, fun _ => Or.inr (by decide)⟩, ?_⟩⟩
  · unfold AllFin; decide +kernel
  · decide +kernel
  · decide +kernel

/-- The restriction on SSE4.2 in C37 is needed: the sixteen floats of `lane3` searched as one block and as two. -/
theorem C37_sse42_split_matters : PArgs .f32 lane3 16 [(0, 16)] .uint8 ∧ PArgs .f32 lane3 16 [(0, 8), (8, 16)] .uint8 ∧ AllFin .f32 lane3 16 ∧
    computeQuantConfigFromData .sse42 .f32 lane3 [(0, 16)] .uint8 = .ret (f1, 127) ∧
    computeQuantConfigFromData .sse42 .f32 lane3 [(0, 8), (8, 16)] .uint8 = .ret (⟨false, 0x3f48c8c9⟩, 128) :=
  ⟨C22_false_sse42.1, ⟨rfl, by decide, rfl, by omega, rfl, by omega, rfl⟩, C22_false_sse42.2.1, C22_false_sse42.2.2.2.1, retIs_iff (by decide +kernel)⟩

/-! ## C20 -/

theorem bind_ret {α β : Type} {p : Prog α} {k : α → Prog β} {b : β} (h : p.bind k = .ret b) : ∃ a, p = .ret a ∧ k a = .ret b := by
  cases p with
  | ret a => exact ⟨a, rfl, h⟩
  | fail f => cases h
  | rd a f => cases h
  | wr a b' q => cases h

theorem toI64_ret {d : F64} {z : ℤ} (h : toI64 d = .ret z) : d.isFin = true ∧ z = d.truncInt ∧ -2 ^ 63 ≤ z ∧ z < 2 ^ 63 := by
  unfold toI64 Flt.toInt? at h
  by_cases hf : d.isFin = true
  · rw [if_pos hf] at h
    simp only at h
    by_cases hb : -(2 ^ (64 - 1) : ℤ) ≤ d.truncInt ∧ d.truncInt < 2 ^ (64 - 1)
    · rw [if_pos hb] at h
      have h : Prog.ret d.truncInt = Prog.ret z := h
      injection h with h
      subst h
      exact ⟨hf, rfl, by norm_num at hb ⊢; omega, by norm_num at hb ⊢; omega⟩
    · rw [if_neg hb] at h; cases h
  · rw [if_neg hf] at h; cases h

theorem truncInt_range {d : F64} {a b : ℤ} (ha : (a:ℚ) ≤ d.toRat) (hb : d.toRat ≤ b) (ha0 : a ≤ 0) (hb0 : 0 ≤ b) : a ≤ d.truncInt ∧ d.truncInt ≤ b := by
  have h0 := absRat_nonneg d
  unfold Flt.truncInt
  unfold Flt.toRat at ha hb
  rw [floor_eq']
  have hn : 0 ≤ ⌊d.absRat⌋ := Int.floor_nonneg.mpr h0
  cases hd : d.neg <;> rw [hd] at ha hb <;> simp only [Bool.false_eq_true, if_true, if_false] at ha hb ⊢
  · have : ⌊d.absRat⌋ ≤ b := by
      have := Int.floor_mono hb; rwa [Int.floor_intCast] at this
    omega
  · have : ⌊d.absRat⌋ ≤ -a := by
      have := Int.floor_mono (show d.absRat ≤ ((-a : ℤ) : ℚ) by push_cast; linarith)
      rwa [Int.floor_intCast] at this
    omega

/-- The zero point of any range of doubles (including infinite and NaN ones). -/
theorem paramsOf_zp {dt : DType} (hdt : dt.isQuant = true) {a b : F64} {s : F32} {z : ℤ} (h : paramsOf dt a b = .ret (s, z)) : 0 ≤ z ∧ z ≤ 2 ^ dt.bits - 1 := by
  obtain ⟨_, _, hsg⟩ := quant_bits hdt
  have hQ := qmax_bounds hdt
  have hcast : ((2 ^ dt.bits - 1 : ℕ) : ℤ) = 2 ^ dt.bits - 1 := by
    have := Nat.one_le_two_pow (n := dt.bits)
    push_cast [Nat.cast_sub this]; rfl
  unfold paramsOf at h
  rw [typeMax_eq hdt, hsg] at h
  have h : (if Flt.feq b a then (pure (f1, (((2 ^ dt.bits - 1 : ℕ) : ℤ) + 0) / 2) : Prog (F32 × ℤ)) else
    (toI64 (Flt.round (Flt.sub (Flt.ofInt f64 0) (Flt.div a (Flt.div (Flt.sub b a) (Flt.sub (Flt.ofInt f64 ((2 ^ dt.bits - 1 : ℕ) : ℤ)) (Flt.ofInt f64 0))))))).bind fun zi =>
      (toI64 (stdMax (stdMin (Flt.ofInt f64 zi) (Flt.ofInt f64 ((2 ^ dt.bits - 1 : ℕ) : ℤ))) (Flt.ofInt f64 0))).bind fun z =>
        pure (Flt.cvt f32 (Flt.div (Flt.sub b a) (Flt.sub (Flt.ofInt f64 ((2 ^ dt.bits - 1 : ℕ) : ℤ)) (Flt.ofInt f64 0))), z)) = .ret (s, z) := h
  rw [hcast] at h
  set Q := (2:ℤ) ^ dt.bits - 1 with hQdef
  by_cases he : Flt.feq b a = true
  · rw [if_pos he] at h
    have h : Prog.ret (f1, (Q + 0) / 2) = Prog.ret (s, z) := h
    injection h with h
    have h := congrArg Prod.snd h
    simp only at h
    omega
  · rw [if_neg he] at h
    obtain ⟨zi, h1, h⟩ := bind_ret h
    obtain ⟨z', h2, h⟩ := bind_ret h
    have h : Prog.ret (_, z') = Prog.ret (s, z) := h
    injection h with h
    have h := congrArg Prod.snd h
    simp only at h
    subst h
    obtain ⟨_, _, hz1, hz2⟩ := toI64_ret h1
    obtain ⟨_, ez, _, _⟩ := toI64_ret h2
    have fi : (Flt.ofInt f64 zi).isFin = true := by
      apply isFin_of_abs
      rw [ofInt_toRat, abs_flr]
      apply fl_fin (abs_nonneg _)
      have : |(zi:ℚ)| ≤ 2 ^ 63 := by
        rw [abs_le]
        constructor
        · have : ((-2 ^ 63 : ℤ) : ℚ) ≤ zi := by exact_mod_cast hz1
          push_cast at this; linarith
        · have : (zi:ℚ) ≤ ((2 ^ 63 : ℤ) : ℚ) := by exact_mod_cast hz2.le
          push_cast at this; linarith
      refine this.trans ?_
      rw [emax_f64]; exact pow_le_pow_right₀ (by norm_num) (by norm_num)
    obtain ⟨e0, fz⟩ := ofInt_exact (f := f64) (z := 0) (by norm_num [f64])
    obtain ⟨eq, fq⟩ := ofInt_exact (f := f64) (z := Q) (by
      rw [abs_of_nonneg (by omega)]; exact hQ.2.trans (by norm_num [f64]))
    obtain ⟨fm, em⟩ := stdMin_fin fi fq
    obtain ⟨fM, eM⟩ := stdMax_fin fm fz
    rw [ez]
    have hQ0 : (0:ℚ) ≤ Q := by exact_mod_cast (by omega : (0:ℤ) ≤ Q)
    apply truncInt_range
    · rw [eM, e0]; exact le_max_right _ _
    · rw [eM, em, e0, eq]; push_cast
      exact max_le (min_le_right _ _) hQ0
    · exact le_refl _
    · omega

/-- C20. Whatever the data (also NaN, infinities), the blocks and the kernel set: if the call returns,
the zero point is a code of the target type and the scale is a number `≥ 0`. -/
theorem C20_zero_point_in_range (hdt : dt.isQuant = true) {s : F32} {z : ℤ}
    (h : computeQuantConfigFromData isa ft x blocks dt = .ret (s, z)) : 0 ≤ z ∧ z ≤ 2 ^ dt.bits - 1 ∧ s.isNaN = false ∧ 0 ≤ s.toRat := by
  unfold computeQuantConfigFromData computeQuantConfig at h
  obtain ⟨r, h1, h⟩ := bind_ret h
  obtain ⟨rs, _, h1⟩ := bind_ret h1
  by_cases hc : (!r.1.isNaN && Flt.ge r.1 f0) = true
  · simp only [hc, if_true] at h
    have h : Prog.ret r = Prog.ret (s, z) := h
    injection h with h
    subst h
    obtain ⟨g1, g2⟩ := paramsOf_zp hdt h1
    rw [Bool.and_eq_true] at hc
    obtain ⟨c1, c2⟩ := hc
    have c1 : s.isNaN = false := by simpa using c1
    refine ⟨g1, g2, c1, ?_⟩
    unfold Flt.ge at c2
    rw [c1, lt_iff c1 (by decide), show f0.toRat = 0 by decide +kernel] at c2
    simpa [show Flt.isNaN f0 = false by decide] using c2
  · simp only [hc] at h
    cases h

/-- `C20_zero_point_in_range` applied to a concrete case. -/
example := C20_zero_point_in_range (isa := .avx512f) (ft := .f32) (x := Ex.many) (blocks := Ex.blocks) (dt := .uint8) (hdt := by wit) (s := Ex.manyS)
    (z := 128) (h := retIs_iff (by decide +kernel))

/-- C20. Without infinities in the data the call either aborts or returns (no undefined behaviour, no
read outside the buffer), for every list of blocks inside the data, empty ones included. -/
theorem C20_aborts_or_returns (hdt : dt.isQuant = true) (hx : ft.size * n ≤ x.size) (hb : ∀ b ∈ blocks, b.1 ≤ b.2 ∧ b.2 ≤ n)
    (hf : ∀ t, t < n → (elem ft.dtype x.data 0 t).isInf = false) :
    computeQuantConfigFromData isa ft x blocks dt = .fail .panic ∨
    ∃ s z, computeQuantConfigFromData isa ft x blocks dt = .ret (s, z) ∧ 0 ≤ z ∧ z ≤ 2 ^ dt.bits - 1 := by
  rcases config_num (isa := isa) hdt hx (fun t ht => by rw [elem_spec]; exact hf t ht) hb with h | ⟨a, b, _, _, _, h⟩
  · exact Or.inl h
  · have := C20_zero_point_in_range hdt h
    exact Or.inr ⟨_, _, h, this.1, this.2.1⟩

/-- `C20_aborts_or_returns` applied to a concrete case. -/
example := C20_aborts_or_returns (isa := .avx512f) (ft := .f32) (x := Ex.many) (n := 70) (blocks := Ex.blocks) (dt := .uint8) (hdt := by wit)
    (hx := by wit) (hb := by wit) (hf := by wit)

/-- `+inf, 0` and `-inf, 0`. -/
def infData : InBuf := Ex.buf (Ex.words32 [0x7f800000, 0])
def ninfData : InBuf := Ex.buf (Ex.words32 [0xff800000, 0])

/-- Infinities: `+inf` yields the scale `+inf` without any diagnostic, `-inf` makes the call convert a
NaN to an integer (undefined behaviour). -/
theorem C20_infinities : computeQuantConfigFromData .portable .f32 infData [(0, 2)] .uint8 = .ret (Flt.inf false, 0) ∧
    computeQuantConfigFromData .portable .f32 ninfData [(0, 2)] .uint8 = .fail .ub := by
  constructor
  · exact retIs_iff (by decide +kernel)
  · exact failIs_iff (by decide +kernel)

/-! ## C21 -/

theorem ofRat32_fin' {q : ℚ} (h : 0 ≤ q ∧ q ≤ 2 ^ 129 / 3 * (1 + 1 / 2 ^ 51)) : (Flt.ofRat f32 q).isFin = true := by
  apply isFin_of_abs
  rw [ofRat_flr, abs_flr, abs_of_nonneg h.1, emax_f32]
  have := rep_nat (f := f32) (m := 3) (k := 126) (by decide)
  exact lt_of_le_of_lt (fl_le h.1 (h.2.trans (by norm_num)) this) (by norm_num)

/-- C21. Finite data whose range is at least `(2^bits-1) * 2^-149`: the returned scale is finite and
positive. -/
theorem C21_scale_positive_partial (h : PArgs ft x n blocks dt) (hn : 0 < n) (hf : AllFin ft x n) (hs : Sees isa ft x n blocks) {lo hi : ℚ}
    (hr : Range ft.dtype x.data n lo hi) (hlo : (2 ^ dt.bits - 1) / 2 ^ 149 ≤ hi - lo) :
    ∃ s z, computeQuantConfigFromData isa ft x blocks dt = .ret (s, z) ∧ s.isFin = true ∧ 0 < s.toRat := by
  refine ⟨(params dt.bits lo hi).1, (params dt.bits lo hi).2, C22_true_range_partial h hn hf hs hr, ?_⟩
  have hQ := qmax_bounds h.quant
  have hQ1 : (3:ℚ) ≤ 2 ^ dt.bits - 1 := by exact_mod_cast hQ.1
  have hQ2 : (2:ℚ) ^ dt.bits - 1 ≤ 255 := by exact_mod_cast hQ.2
  obtain ⟨⟨⟨a, ha, ea⟩, _⟩, ⟨b, hb, eb⟩, _⟩ := hr
  have hA := abs_lt.mp (abs_lt_of_isFin (hf a ha))
  have hB := abs_lt.mp (abs_lt_of_isFin (hf b hb))
  rw [emax_f32] at hA hB
  have hd2 : hi - lo ≤ 2 ^ 129 := by
    have : (2:ℚ) ^ 129 = 2 ^ 128 + 2 ^ 128 := by norm_num
    rw [this, ea, eb]; linarith [hA.1, hB.2]
  have hd1 : 1 / 2 ^ 149 ≤ hi - lo := by
    refine le_trans ?_ hlo
    exact div_le_div_of_nonneg_right (by linarith) (by positivity)
  obtain ⟨_, b2, b3⟩ := scale64_bounds (bits := dt.bits) hQ hd1 hd2
  have hne : ¬ hi = lo := by
    intro e; rw [e, sub_self] at hd1
    have : (0:ℚ) < 1 / 2 ^ 149 := by positivity
    linarith
  unfold params
  rw [if_neg hne]
  set d := hi - lo with hd
  have hq1 : 1 / 2 ^ 149 ≤ d / (2 ^ dt.bits - 1) := by
    rw [le_div_iff₀ (by linarith)]; rw [one_div_mul_eq_div]; exact hlo
  have hq2 : d / (2 ^ dt.bits - 1) ≤ 2 ^ 129 / 3 := div_le_div₀ (by positivity) hd2 (by norm_num) hQ1
  have hlow : 3 / 4 / 2 ^ 149 ≤ scale64 dt.bits lo hi := by
    refine le_trans ?_ b2
    calc (3:ℚ) / 4 / 2 ^ 149 = 1 / 2 ^ 149 * (3 / 4) := by ring
      _ ≤ _ := mul_le_mul hq1 (by norm_num) (by norm_num) (le_trans (by positivity) hq1)
  constructor
  · apply ofRat32_fin'
    refine ⟨le_trans (by positivity) hlow, b3.trans ?_⟩
    exact mul_le_mul_of_nonneg_right hq2 (by norm_num)
  · show 0 < (Flt.ofRat f32 _).toRat
    have e : (Flt.ofRat f32 (3 / 4 / 2 ^ 149)).toRat = 1 / 2 ^ 149 := by decide +kernel
    rw [ofRat_flr] at e ⊢
    have := flr_mono (f := f32) hlow
    rw [e] at this
    exact lt_of_lt_of_le (by positivity) this

/-- `C21_scale_positive_partial` applied to a concrete case. -/
example := C21_scale_positive_partial (isa := .avx512f) (ft := .f32) (x := Ex.many) (n := 70) (blocks := Ex.blocks) (dt := .uint8) (h := by wit)
    (hn := by wit) (hf := by wit) (hs := by wit) (lo := (-25 / 4)) (hi := (25 / 4)) (hr := by wit) (hlo := by wit)

/-- The data 1, -2.5, 0.3, 7.75, 100 meets the hypotheses of C22 and C21. -/
example : PArgs .f32 Ex.xs 5 [(0, 2), (2, 5)] .uint8 ∧ AllFin .f32 Ex.xs 5 ∧ Sees .avx512f .f32 Ex.xs 5 [(0, 2), (2, 5)] ∧
    Range .f32 Ex.xs.data 5 (-5 / 2) 100 ∧ ((2:ℚ) ^ 8 - 1) / 2 ^ 149 ≤ 100 - -5 / 2 := by
  have hv : ∀ t, t < 5 → -5 / 2 ≤ (elem .f32 Ex.xs.data 0 t).toRat ∧ (elem .f32 Ex.xs.data 0 t).toRat ≤ 100 := by decide +kernel
  refine ⟨⟨rfl, by decide, rfl, by omega, rfl, by omega, rfl⟩, ?_, ?_, ⟨⟨⟨1, by omega, by decide +kernel⟩, ?_⟩, ⟨4, by omega, by decide +kernel⟩, ?_⟩, by norm_num⟩
  · unfold AllFin; decide +kernel
  · exact sees_small (dt := .uint8) ⟨rfl, by decide, rfl, by omega, rfl, by omega, rfl⟩ (by omega) (fun h => by cases h)
  · rintro v ⟨t, ht, rfl⟩; exact (hv t ht).1
  · rintro v ⟨t, ht, rfl⟩; exact (hv t ht).2

/-- 0 and the least subnormal. -/
def tiny : InBuf := Ex.buf (Ex.words32 [0, 1])

/-- The bound on the range in C21 is needed: two distinct finite values can yield the scale 0 (which
`quantize` then inverts to infinity). -/
theorem C21_tiny_range_scale_zero : PArgs .f32 tiny 2 [(0, 2)] .uint8 ∧ AllFin .f32 tiny 2 ∧ Range .f32 tiny.data 2 0 (1 / 2 ^ 149) ∧
    computeQuantConfigFromData .portable .f32 tiny [(0, 2)] .uint8 = .ret (f0, 0) := by
  have hv : ∀ t, t < 2 → 0 ≤ (elem .f32 tiny.data 0 t).toRat ∧ (elem .f32 tiny.data 0 t).toRat ≤ 1 / 2 ^ 149 := by decide +kernel
  refine ⟨⟨rfl, by decide, rfl, by omega, rfl⟩, ?_, ⟨⟨⟨0, by omega, by decide +kernel⟩, ?_⟩, ⟨1, by omega, by decide +kernel⟩, ?_⟩, ?_⟩
  · unfold AllFin; decide +kernel
  · rintro v ⟨t, ht, rfl⟩; exact (hv t ht).1
  · rintro v ⟨t, ht, rfl⟩; exact (hv t ht).2
  · exact retIs_iff (by decide +kernel)

/-! ## C22 on every kernel set -/

/-- What remains of C22 on every kernel set, SSE4.2 with large blocks included: the parameters belong
to a range between two values of the data. -/
theorem C22_subrange (h : PArgs ft x n blocks dt) (hn : 0 < n) (hf : AllFin ft x n) :
    ∃ lo ∈ values ft.dtype x.data n, ∃ hi ∈ values ft.dtype x.data n, lo ≤ hi ∧
      computeQuantConfigFromData isa ft x blocks dt = .ret (params dt.bits lo hi) := by
  obtain ⟨T, lo, hi, ⟨hb, ⟨u, hu, eu⟩, ⟨w, hw, ew⟩⟩, h1, _, e⟩ := config_fin (isa := isa) h.quant h.size hn (fin_elem hf) h.split
  refine ⟨lo, ⟨u, h1 u hu, ?_⟩, hi, ⟨w, h1 w hw, ?_⟩, ?_, e⟩
  · rw [eu]; simp only [elem_spec]
  · rw [ew]; simp only [elem_spec]
  · rw [eu]; exact (hb u hu).2

/-- `C22_subrange` applied to a concrete case. -/
example := C22_subrange (isa := .avx512f) (ft := .f32) (x := Ex.many) (n := 70) (blocks := Ex.blocks) (dt := .uint8) (h := by wit) (hn := by wit)
    (hf := by wit)

/-- What remains of C21 on every kernel set and split, for all finite data: the scale is finite and not negative. -/
theorem C21_scale_finite (h : PArgs ft x n blocks dt) (hn : 0 < n) (hf : AllFin ft x n) :
    ∃ s z, computeQuantConfigFromData isa ft x blocks dt = .ret (s, z) ∧ s.isFin = true ∧ 0 ≤ s.toRat := by
  obtain ⟨lo, ⟨a, ha, ea⟩, hi, ⟨b, hb, eb⟩, hle, e⟩ := C22_subrange (isa := isa) h hn hf
  have hp := (C20_zero_point_in_range (isa := isa) (ft := ft) (x := x) (blocks := blocks) h.quant (s := (params dt.bits lo hi).1) (z := (params dt.bits lo hi).2) e).2.2.2
  refine ⟨(params dt.bits lo hi).1, (params dt.bits lo hi).2, e, ?_, hp⟩
  have hQ := qmax_bounds h.quant
  have hQ1 : (3:ℚ) ≤ 2 ^ dt.bits - 1 := by exact_mod_cast hQ.1
  have hA := abs_lt.mp (abs_lt_of_isFin (hf a ha))
  have hB := abs_lt.mp (abs_lt_of_isFin (hf b hb))
  rw [emax_f32] at hA hB
  unfold params
  split
  · show Verif.f1.isFin = true; decide
  · rename_i hne
    have hlt : lo < hi := lt_of_le_of_ne hle (Ne.symm hne)
    have hd2 : hi - lo ≤ 2 ^ 129 := by
      have : (2:ℚ) ^ 129 = 2 ^ 128 + 2 ^ 128 := by norm_num
      rw [this, ea, eb]; linarith [hA.1, hB.2]
    have hd1 : 1 / 2 ^ 149 ≤ hi - lo := by
      rw [ea, eb] at hlt ⊢
      have := toRat_sub_unit hlt
      rwa [unit_f32] at this
    obtain ⟨_, b2, b3⟩ := scale64_bounds (bits := dt.bits) hQ hd1 hd2
    have hq0 : 0 ≤ (hi - lo) / (2 ^ dt.bits - 1) := div_nonneg (by linarith) (by linarith)
    apply ofRat32_fin'
    refine ⟨le_trans (mul_nonneg hq0 (by norm_num)) b2, b3.trans ?_⟩
    exact mul_le_mul_of_nonneg_right (div_le_div₀ (by positivity) hd2 (by norm_num) hQ1) (by norm_num)

/-- `C21_scale_finite` applied to a concrete case. -/
example := C21_scale_finite (isa := .avx512f) (ft := .f32) (x := Ex.many) (n := 70) (blocks := Ex.blocks) (dt := .uint8) (h := by wit) (hn := by wit)
    (hf := by wit)

/-- Sixteen floats: 0 everywhere, but the least subnormal at index 0 and 1.0 at index 3. -/
def tinyLane3 : InBuf := Ex.buf (Ex.words32 [1, 0, 0, 0x3f800000, 0, 0, 0, 0, 0, 0, 0, 0, 0, 0, 0, 0])

/-- C21 is false on SSE4.2: the range is 1, but the elements that count have so small a range that the scale is 0. -/
theorem C21_false_sse42 : PArgs .f32 tinyLane3 16 [(0, 16)] .uint8 ∧ AllFin .f32 tinyLane3 16 ∧ Range .f32 tinyLane3.data 16 0 1 ∧
    computeQuantConfigFromData .sse42 .f32 tinyLane3 [(0, 16)] .uint8 = .ret (f0, 0) := by
  have hv : ∀ t, t < 16 → 0 ≤ (elem .f32 tinyLane3.data 0 t).toRat ∧ (elem .f32 tinyLane3.data 0 t).toRat ≤ 1 := by decide +kernel
  refine ⟨⟨rfl, by decide, rfl, by omega, rfl⟩, ?_, ⟨⟨⟨1, by omega, by decide +kernel⟩, ?_⟩, ⟨3, by omega, by decide +kernel⟩, ?_⟩, retIs_iff (by decide +kernel)⟩
  · unfold AllFin; decide +kernel
  · rintro v ⟨t, ht, rfl⟩; exact (hv t ht).1
  · rintro v ⟨t, ht, rfl⟩; exact (hv t ht).2

/-- The values of the elements that count. -/
def seenValues (isa : Isa) (ft : FT) (x : InBuf) (blocks : List (Nat × Nat)) : Set ℚ :=
  {v | ∃ t, SeenIn isa ft blocks t ∧ v = (elem ft.dtype x.data 0 t).toRat}

/-- C22, exactly, on every kernel set and every split: the result is the parameters of the least and the greatest of the elements
that count: all elements, except on SSE4.2 (`SeenIn`). -/
theorem C22_exact_every_kernel (h : PArgs ft x n blocks dt) (hn : 0 < n) (hf : AllFin ft x n) :
    ∃ lo hi, IsLeast (seenValues isa ft x blocks) lo ∧ IsGreatest (seenValues isa ft x blocks) hi ∧
      computeQuantConfigFromData isa ft x blocks dt = .ret (params dt.bits lo hi) := by
  obtain ⟨lo, hi, ⟨hb, ⟨u, hu, eu⟩, ⟨w, hw, ew⟩⟩, _, e⟩ := config_seen (isa := isa) h.quant h.size hn (fin_elem hf) h.split
  simp only [elem_spec] at hb eu ew
  exact ⟨lo, hi, ⟨⟨u, hu, eu⟩, fun v ⟨t, ht, ev⟩ => ev ▸ (hb t ht).1⟩, ⟨⟨w, hw, ew⟩, fun v ⟨t, ht, ev⟩ => ev ▸ (hb t ht).2⟩, e⟩

/-- `C22_exact_every_kernel` applied to a concrete case. -/
example := C22_exact_every_kernel (isa := .avx512f) (ft := .f32) (x := Ex.many) (n := 70) (blocks := Ex.blocks) (dt := .uint8) (h := by wit)
    (hn := by wit) (hf := by wit)

/-- ... so it is right if a least and a greatest element are among them (`C22_true_range_partial`), and wrong whenever they are not: if every element that counts lies strictly above the minimum of the data (or strictly below its
maximum), the parameters returned are those of a strictly smaller range. -/
theorem C22_false_whenever_unseen (h : PArgs ft x n blocks dt) (hn : 0 < n) (hf : AllFin ft x n) {lo hi : ℚ} (hr : Range ft.dtype x.data n lo hi)
    (h1 : lo ∉ seenValues isa ft x blocks ∨ hi ∉ seenValues isa ft x blocks) :
    ∃ lo' hi', lo ≤ lo' ∧ hi' ≤ hi ∧ hi' - lo' < hi - lo ∧ computeQuantConfigFromData isa ft x blocks dt = .ret (params dt.bits lo' hi') := by
  obtain ⟨lo', hi', ⟨⟨u, hu, eu⟩, hl⟩, ⟨⟨w, hw, ew⟩, hg⟩, e⟩ := C22_exact_every_kernel (isa := isa) h hn hf
  obtain ⟨lo'', hi'', _, hlt, _⟩ := config_seen (isa := isa) h.quant h.size hn (fin_elem hf) h.split
  have e1 : lo ≤ lo' := hr.1.2 ⟨u, hlt u hu, eu⟩
  have e2 : hi' ≤ hi := hr.2.2 ⟨w, hlt w hw, ew⟩
  refine ⟨lo', hi', e1, e2, ?_, e⟩
  rcases h1 with h1 | h1
  · have : lo < lo' := lt_of_le_of_ne e1 (fun h => h1 ⟨u, hu, by rw [h]; exact eu⟩)
    linarith
  · have : hi' < hi := lt_of_le_of_ne e2 (fun h => h1 ⟨w, hw, by rw [← h]; exact ew⟩)
    linarith

/-- Sixteen floats with the extremes in the fourth lane: the minimum does not count on SSE4.2. -/
example : PArgs .f32 lane3 16 [(0, 16)] .uint8 ∧ Range .f32 lane3.data 16 (-100) 100 ∧ (-100 : ℚ) ∉ seenValues .sse42 .f32 lane3 [(0, 16)] ∧
    (1 : ℚ) ∈ seenValues .sse42 .f32 lane3 [(0, 16)] := by
  refine ⟨C22_false_sse42.1, C22_false_sse42.2.2.1, ?_, ⟨0, ⟨(0, 16), by simp, by decide, by decide, fun _ => Or.inr (by decide)⟩, by decide +kernel⟩⟩
  rintro ⟨t, ⟨b, hb, _, h2, h3⟩, e⟩
  simp only [List.mem_singleton] at hb
  subst hb
  have h3 := h3 rfl
  have h2 : t < 16 := h2
  have h3 : 16 / 16 * 16 ≤ t ∨ t % 4 < 3 := by simpa using h3
  have key : ∀ t, t < 16 → t % 4 < 3 → (elem .f32 lane3.data 0 t).toRat ≠ -100 := by decide +kernel
  exact key t h2 (by omega) e.symm

/-! ## C23 -/

/-- C23. Constant finite data, on every kernel set and every split: scale 1 and the middle code. -/
theorem C23_constant_data (h : PArgs ft x n blocks dt) (hn : 0 < n) (hf : AllFin ft x n) {v : ℚ}
    (hv : ∀ t, t < n → (elem ft.dtype x.data 0 t).toRat = v) :
    computeQuantConfigFromData isa ft x blocks dt = .ret (f1, (2 ^ dt.bits - 1) / 2) := by
  obtain ⟨lo, ⟨u, hu, eu⟩, hi, ⟨w, hw, ew⟩, _, e⟩ := C22_subrange (isa := isa) h hn hf
  rw [e, eu, ew, hv u hu, hv w hw]
  unfold params
  rw [if_pos rfl]; rfl

/-- `C23_constant_data` applied to a concrete case. -/
example := C23_constant_data (isa := .avx512f) (ft := .f32) (x := (Ex.buf (Ex.words32 [0x40200000, 0x40200000, 0x40200000]))) (n := 3)
    (blocks := [(0, 1), (1, 3)]) (dt := .uint8) (h := ⟨rfl, by decide, rfl, by decide, rfl, by decide, rfl⟩) (hn := by wit)
    (hf := by unfold AllFin; decide +kernel) (v := (5 / 2)) (hv := by wit)

/-- Three times 2.5 (and a zero of each sign: equal values, different bits). -/
example : PArgs .f32 (Ex.buf (Ex.words32 [0x40200000, 0x40200000, 0x40200000])) 3 [(0, 1), (1, 3)] .uint2 ∧
    AllFin .f32 (Ex.buf (Ex.words32 [0x40200000, 0x40200000, 0x40200000])) 3 ∧
    (∀ t, t < 3 → (elem .f32 (Ex.buf (Ex.words32 [0x40200000, 0x40200000, 0x40200000])).data 0 t).toRat = 5 / 2) ∧
    (∀ t, t < 2 → (elem .f32 (Ex.buf (Ex.words32 [0, 0x80000000])).data 0 t).toRat = 0) := by
  refine ⟨⟨rfl, by decide, rfl, by omega, rfl, by omega, rfl⟩, ?_, ?_, ?_⟩
  · unfold AllFin; decide +kernel
  · decide +kernel
  · decide +kernel

/-! ## C24 -/

/-- C24. Empty data (no block to process) aborts. -/
theorem C24_empty_aborts (hdt : dt.isQuant = true) : computeQuantConfigFromData isa ft x [] dt = .fail .panic := by
  rw [config_checked (rs := []) rfl]
  exact nan_panics hdt ⟨Or.inl rfl, Or.inl rfl⟩

/-- `C24_empty_aborts` applied to a concrete case. -/
example := C24_empty_aborts (isa := .avx512f) (ft := .f32) (x := Ex.many) (dt := .uint8) (hdt := by wit)

/-- C24. Data consisting of NaNs only aborts, on every kernel set, for all non-empty blocks. -/
theorem C24_all_nan_aborts (hdt : dt.isQuant = true) (hx : ft.size * n ≤ x.size) (hb : ∀ b ∈ blocks, b.1 < b.2 ∧ b.2 ≤ n)
    (hf : ∀ t, t < n → (elem ft.dtype x.data 0 t).isNaN = true) : computeQuantConfigFromData isa ft x blocks dt = .fail .panic := by
  obtain ⟨rs, ers, hrs, _⟩ := mmBlocks_all (P := fun r => NanOk (fun _ => True) r.1 r.2) (isa := isa) (ft := ft) (x := x) blocks (by
    intro b hbm
    obtain ⟨h, h2⟩ := hb b hbm
    obtain ⟨r, er, C, hC⟩ := mmBlock_gen (isa := isa) (R := NanOk) hx h h2 (NanOk.rel (fun t ht => by
      show (x.elem ft (ft.size * b.1) t).isNaN = true
      rw [elem_off, elem_spec]; exact hf _ (by omega)))
    exact ⟨r, er, hC⟩)
  rw [config_checked ers]
  exact nan_panics hdt (combNan_all rs (dblMax, dblLowest) ⟨Or.inl rfl, Or.inl rfl⟩ hrs)

/-- `C24_all_nan_aborts` applied to a concrete case. -/
example := C24_all_nan_aborts (isa := .avx512f) (ft := .f32) (x := (Ex.buf (Ex.words32 [0x7fc00000, 0xffc00001]))) (n := 2)
    (blocks := [(0, 1), (1, 2)]) (dt := .uint8) (hdt := by wit) (hx := by wit) (hb := by wit) (hf := by wit)

/-- Two NaNs in one block. -/
def nans : InBuf := Ex.buf (Ex.words32 [0x7fc00000, 0xffc00001])
example : ∀ t, t < 2 → (elem .f32 nans.data 0 t).isNaN = true := by decide +kernel

/-- The blocks must be non-empty: an *empty* block contributes the range `[0, 0]`, so NaN data with an
extra empty block is accepted, and so is empty data handed to a pool that calls back with one empty
block. -/
theorem C24_false_empty_block : computeQuantConfigFromData .portable .f32 nans [(0, 2), (2, 2)] .uint8 = .ret (f1, 127) ∧
    computeQuantConfigFromData .portable .f32 nans [(0, 0)] .uint8 = .ret (f1, 127) :=
  ⟨retIs_iff (by decide +kernel), retIs_iff (by decide +kernel)⟩

/-! ## C41 for the parameter search -/

/-- The allowed outcomes. -/
def Out {α : Type} (p : Prog α) : Prop := (∃ r, p = .ret r) ∨ p = .fail .panic ∨ p = .fail .ub

theorem out_ret {α : Type} (a : α) : Out (pure a : Prog α) := Or.inl ⟨a, rfl⟩
theorem out_bind {α β : Type} {p : Prog α} {k : α → Prog β} (h : Out p) (hk : ∀ a, Out (k a)) : Out (p >>= k) := by
  rcases h with ⟨a, rfl⟩ | rfl | rfl
  · exact hk a
  · exact Or.inr (Or.inl rfl)
  · exact Or.inr (Or.inr rfl)
theorem out_toI64 (d : F64) : Out (toI64 d) := by
  unfold toI64; split
  · exact Or.inr (Or.inr rfl)
  · exact Or.inl ⟨_, rfl⟩

/-- C41. Any data (NaN, infinities included), any blocks inside the data, any kernel set: the search
ends, and never reads outside the buffer; it returns, aborts, or converts a non-finite double. -/
theorem C41_parameters_terminate (hx : ft.size * n ≤ x.size) (hb : ∀ b ∈ blocks, b.1 ≤ b.2 ∧ b.2 ≤ n) :
    (∃ r, computeQuantConfigFromData isa ft x blocks dt = .ret r) ∨ computeQuantConfigFromData isa ft x blocks dt = .fail .panic ∨
      computeQuantConfigFromData isa ft x blocks dt = .fail .ub := by
  obtain ⟨rs, ers, _, _⟩ := mmBlocks_all (P := fun _ => True) (isa := isa) (ft := ft) (x := x) blocks (by
    intro b hbm
    obtain ⟨h1, h2⟩ := hb b hbm
    rcases Nat.lt_or_ge b.1 b.2 with h | h
    · have : ft.size * b.1 + ft.size * (b.2 - b.1) ≤ x.size := by
        rw [← Nat.mul_add]; exact le_trans (Nat.mul_le_mul_left _ (by omega)) hx
      obtain ⟨r, e⟩ := findMinMax_ret (isa := isa) this
      refine ⟨r, ?_, trivial⟩
      unfold mmBlock; rw [if_neg (by omega)]; exact e
    · refine ⟨(f0, f0), ?_, trivial⟩
      unfold mmBlock; rw [if_pos (by omega)]; rfl)
  rw [config_checked ers]
  show Out (checked _)
  unfold checked paramsOf computeTypeMax
  refine out_bind (out_bind ?_ fun tm => ?_) fun r => ?_
  · split
    · exact out_ret _
    · exact Or.inr (Or.inl rfl)
  · dsimp only
    split
    · exact out_ret _
    · exact out_bind (out_toI64 _) fun zi => out_bind (out_toI64 _) fun z => out_ret _
  · split
    · exact out_ret _
    · exact Or.inr (Or.inl rfl)

/-- `C41_parameters_terminate` applied to a concrete case. -/
example := C41_parameters_terminate (isa := .avx512f) (ft := .f32) (x := Ex.many) (n := 70) (blocks := Ex.blocks) (dt := .uint8) (hx := by wit)
    (hb := by wit)

example : (FT.f32).size * 5 ≤ Ex.xs.size ∧ ∀ b ∈ [(0, 2), (2, 2), (2, 5)], b.1 ≤ b.2 ∧ b.2 ≤ 5 := by decide

end Verif.Props
