import Verif.Props.InfParams
import Verif.Proofs.ParamsSeen

/-!
# Parameters computed from data: complete when no element that counts is NaN: C119

Which elements count is `SeenIn` (SpecParams.lean): all of them, except on SSE4.2, where the horizontal minimum and maximum
(src/kernels/kernels_specialized.inl:1444-1462) drop the fourth lane of the vectors.  Nothing is assumed of the other elements: they may be
NaN or infinite.
-/

namespace Verif.Props
open Spec

section
variable {isa isa' : Isa} {ft : FT} {x x' : InBuf} {n : Nat} {blocks : List (Nat × Nat)} {dt : DType}

/-- No element that counts is NaN. -/
def SeenNum (isa : Isa) (ft : FT) (x : InBuf) (blocks : List (Nat × Nat)) : Prop :=
  ∀ t, SeenIn isa ft blocks t → (elem ft.dtype x.data 0 t).isNaN = false

/-- C119. A minus infinity that counts: undefined behaviour. -/
theorem C119_minus_infinity (h : PArgs ft x n blocks dt) (hf : SeenNum isa ft x blocks) {t : Nat}
    (ht : SeenIn isa ft blocks t) (et : elem ft.dtype x.data 0 t = Flt.inf true) :
    computeQuantConfigFromData isa ft x blocks dt = .fail .ub :=
  seen_ninf h.quant h.size (fun t ht => by rw [elem_spec]; exact hf t ht) h.split ht (by rw [elem_spec]; exact et)

/-- C119. A plus infinity that counts, no minus infinity that counts: an infinite scale. -/
theorem C119_plus_infinity (h : PArgs ft x n blocks dt) (hf : SeenNum isa ft x blocks) {t : Nat}
    (ht : SeenIn isa ft blocks t) (et : elem ft.dtype x.data 0 t = Flt.inf false)
    (hm : ∀ t, SeenIn isa ft blocks t → elem ft.dtype x.data 0 t ≠ Flt.inf true) :
    computeQuantConfigFromData isa ft x blocks dt = .ret (Flt.inf false, 0) :=
  seen_pinf h.quant h.size (fun t ht => by rw [elem_spec]; exact hf t ht) h.split ht (by rw [elem_spec]; exact et)
    (fun t ht => by rw [elem_spec]; exact hm t ht)

/-- C119. All elements that count are finite: the parameters of the least and the greatest of them. -/
theorem C119_finite (h : PArgs ft x n blocks dt) (hn : 0 < n)
    (hf : ∀ t, SeenIn isa ft blocks t → (elem ft.dtype x.data 0 t).isFin = true) :
    ∃ lo hi, IsLeast (seenValues isa ft x blocks) lo ∧ IsGreatest (seenValues isa ft x blocks) hi ∧
      computeQuantConfigFromData isa ft x blocks dt = .ret (params dt.bits lo hi) := by
  obtain ⟨u, w, ⟨hu, hw⟩, hb, e⟩ := seen_fin (isa := isa) h.quant h.size hn (fun t ht => by rw [elem_spec]; exact hf t ht) h.split
  simp only [elem_spec] at hb e
  exact ⟨_, _, ⟨⟨u, hu, rfl⟩, fun v ⟨t, ht, ev⟩ => ev ▸ (hb t ht).1⟩, ⟨⟨w, hw, rfl⟩, fun v ⟨t, ht, ev⟩ => ev ▸ (hb t ht).2⟩, e⟩

theorem num_cases {a : F32} (h : a.isNaN = false) : a = Flt.inf true ∨ a = Flt.inf false ∨ a.isFin = true := by
  rcases fin_or_inf h with h1 | h1
  · exact Or.inr (Or.inr h1)
  · have := mag_inf h1
    cases hg : a.neg <;> rw [hg] at this
    · exact Or.inr (Or.inl this)
    · exact Or.inl this

/-- C119. These are all cases. -/
theorem C119_complete (h : PArgs ft x n blocks dt) (hn : 0 < n) (hf : SeenNum isa ft x blocks) :
    ((∃ t, SeenIn isa ft blocks t ∧ elem ft.dtype x.data 0 t = Flt.inf true) ∧ computeQuantConfigFromData isa ft x blocks dt = .fail .ub) ∨
    ((∀ t, SeenIn isa ft blocks t → elem ft.dtype x.data 0 t ≠ Flt.inf true) ∧ (∃ t, SeenIn isa ft blocks t ∧ elem ft.dtype x.data 0 t = Flt.inf false) ∧
      computeQuantConfigFromData isa ft x blocks dt = .ret (Flt.inf false, 0)) ∨
    ((∀ t, SeenIn isa ft blocks t → (elem ft.dtype x.data 0 t).isFin = true) ∧
      ∃ lo hi, IsLeast (seenValues isa ft x blocks) lo ∧ IsGreatest (seenValues isa ft x blocks) hi ∧
        computeQuantConfigFromData isa ft x blocks dt = .ret (params dt.bits lo hi)) := by
  by_cases h1 : ∃ t, SeenIn isa ft blocks t ∧ elem ft.dtype x.data 0 t = Flt.inf true
  · obtain ⟨t, ht, et⟩ := h1
    exact Or.inl ⟨⟨t, ht, et⟩, C119_minus_infinity h hf ht et⟩
  have h1' : ∀ t, SeenIn isa ft blocks t → elem ft.dtype x.data 0 t ≠ Flt.inf true := fun t ht e => h1 ⟨t, ht, e⟩
  by_cases h2 : ∃ t, SeenIn isa ft blocks t ∧ elem ft.dtype x.data 0 t = Flt.inf false
  · obtain ⟨t, ht, et⟩ := h2
    exact Or.inr (Or.inl ⟨h1', ⟨t, ht, et⟩, C119_plus_infinity h hf ht et h1'⟩)
  · have hfin : ∀ t, SeenIn isa ft blocks t → (elem ft.dtype x.data 0 t).isFin = true := by
      intro t ht
      rcases num_cases (hf t ht) with e | e | e
      · exact absurd e (h1' t ht)
      · exact absurd ⟨t, ht, e⟩ h2
      · exact e
    exact Or.inr (Or.inr ⟨hfin, C119_finite h hn hfin⟩)

/-- The parameters of two finite floats have a finite scale. -/
theorem params_fin (hdt : dt.isQuant = true) {lo hi : ℚ} (hle : lo ≤ hi) {a b : F32} (fa : a.isFin = true) (fb : b.isFin = true) (ea : lo = a.toRat) (eb : hi = b.toRat) :
    (params dt.bits lo hi).1.isFin = true := by
  have hQ := qmax_bounds hdt
  have hQ1 : (3:ℚ) ≤ 2 ^ dt.bits - 1 := by exact_mod_cast hQ.1
  have hA := abs_lt.mp (abs_lt_of_isFin fa)
  have hB := abs_lt.mp (abs_lt_of_isFin fb)
  rw [emax_f32] at hA hB
  unfold params
  split
  · show Verif.f1.isFin = true; decide
  · rename_i hne
    have hlt : lo < hi := lt_of_le_of_ne hle (Ne.symm hne)
    have hd2 : hi - lo ≤ 2 ^ 129 := by
      have : (2:ℚ) ^ 129 = 2 ^ 128 + 2 ^ 128 := by norm_num
      rw [this, ea, eb]; linarith [hA.1, hB.2]
    have hd1 : 1 / 2 ^ 149 ≤ hi - lo := by
      rw [ea, eb] at hlt ⊢
      have := toRat_sub_unit hlt
      rwa [unit_f32] at this
    obtain ⟨_, b2, b3⟩ := scale64_bounds (bits := dt.bits) hQ hd1 hd2
    have hq0 : 0 ≤ (hi - lo) / (2 ^ dt.bits - 1) := div_nonneg (by linarith) (by linarith)
    apply ofRat32_fin'
    refine ⟨le_trans (mul_nonneg hq0 (by norm_num)) b2, b3.trans ?_⟩
    exact mul_le_mul_of_nonneg_right (div_le_div₀ (by positivity) hd2 (by norm_num) hQ1) (by norm_num)

/-- C119. A finite scale comes out exactly if all elements that count are finite. -/
theorem C119_finite_scale_iff (h : PArgs ft x n blocks dt) (hn : 0 < n) (hf : SeenNum isa ft x blocks) :
    (∃ s z, computeQuantConfigFromData isa ft x blocks dt = .ret (s, z) ∧ s.isFin = true) ↔
      ∀ t, SeenIn isa ft blocks t → (elem ft.dtype x.data 0 t).isFin = true := by
  rcases C119_complete h hn hf with ⟨⟨t, ht, et⟩, e⟩ | ⟨_, ⟨t, ht, et⟩, e⟩ | ⟨h1, lo, hi, h2, h3, e⟩ <;> rw [e]
  · refine ⟨fun ⟨_, _, h, _⟩ => by simp at h, fun h => ?_⟩
    have := h t ht
    rw [et] at this; exact absurd this (by decide)
  · refine ⟨?_, fun h => ?_⟩
    · rintro ⟨s, z, h, hs⟩
      simp only [Prog.ret.injEq, Prod.mk.injEq] at h
      rw [← h.1] at hs; exact absurd hs (by decide)
    · have := h t ht
      rw [et] at this; exact absurd this (by decide)
  · refine ⟨fun _ => h1, fun _ => ⟨_, _, rfl, ?_⟩⟩
    obtain ⟨u, hu, eu⟩ := h2.1
    obtain ⟨w, hw, ew⟩ := h3.1
    exact params_fin h.quant (h2.2 h3.1) (h1 u hu) (h1 w hw) eu ew

/-- C119. The elements that do not count have no influence: two arrays that agree on those that do get the same answer, whatever else is in them. -/
theorem C119_unseen_ignored (h : PArgs ft x n blocks dt) (h' : PArgs ft x' n blocks dt) (hn : 0 < n) (hf : SeenNum isa ft x blocks)
    (he : ∀ t, SeenIn isa ft blocks t → elem ft.dtype x.data 0 t = elem ft.dtype x'.data 0 t) :
    computeQuantConfigFromData isa ft x blocks dt = computeQuantConfigFromData isa ft x' blocks dt := by
  have hf' : SeenNum isa ft x' blocks := fun t ht => by rw [← he t ht]; exact hf t ht
  have hv : seenValues isa ft x blocks = seenValues isa ft x' blocks := by
    ext v; constructor
    · rintro ⟨t, ht, e⟩; exact ⟨t, ht, by rw [e, he t ht]⟩
    · rintro ⟨t, ht, e⟩; exact ⟨t, ht, by rw [e, he t ht]⟩
  rcases C119_complete h hn hf with ⟨⟨t, ht, et⟩, e⟩ | ⟨h1, ⟨t, ht, et⟩, e⟩ | ⟨h1, lo, hi, h2, h3, e⟩
  · rw [e, C119_minus_infinity h' hf' ht (by rw [← he t ht]; exact et)]
  · rw [e, C119_plus_infinity h' hf' ht (by rw [← he t ht]; exact et) (fun t ht => by rw [← he t ht]; exact h1 t ht)]
  · obtain ⟨lo', hi', h2', h3', e'⟩ := C119_finite (isa := isa) h' hn (fun t ht => by rw [← he t ht]; exact h1 t ht)
    rw [hv] at h2 h3
    rw [e, e', h2.unique h2', h3.unique h3']

/-- C119. Hence on the other kernel sets the answer for data without NaN is a function of the data alone: the kernel set and the split do not matter. -/
theorem C119_kernel_independent {blocks' : List (Nat × Nat)} (h : PArgs ft x n blocks dt) (h' : PArgs ft x n blocks' dt) (hn : 0 < n)
    (hi : isa ≠ .sse42) (hi' : isa' ≠ .sse42) (hf : NoNan ft x n) :
    computeQuantConfigFromData isa ft x blocks dt = computeQuantConfigFromData isa' ft x blocks' dt := by
  have s1 : ∀ t, SeenIn isa ft blocks t ↔ t < n := fun t => ⟨seenIn_lt h.split, fun ht => seen_all blocks 0 h.split (fun e => absurd e hi) t (by omega) ht⟩
  have s2 : ∀ t, SeenIn isa' ft blocks' t ↔ t < n := fun t => ⟨seenIn_lt h'.split, fun ht => seen_all blocks' 0 h'.split (fun e => absurd e hi') t (by omega) ht⟩
  have f1 : SeenNum isa ft x blocks := fun t ht => hf t ((s1 t).1 ht)
  have f2 : SeenNum isa' ft x blocks' := fun t ht => hf t ((s2 t).1 ht)
  have hv : seenValues isa ft x blocks = seenValues isa' ft x blocks' := by
    ext v; constructor
    · rintro ⟨t, ht, e⟩; exact ⟨t, (s2 t).2 ((s1 t).1 ht), e⟩
    · rintro ⟨t, ht, e⟩; exact ⟨t, (s1 t).2 ((s2 t).1 ht), e⟩
  have tr : ∀ t, SeenIn isa' ft blocks' t → SeenIn isa ft blocks t := fun t ht => (s1 t).2 ((s2 t).1 ht)
  have tr' : ∀ t, SeenIn isa ft blocks t → SeenIn isa' ft blocks' t := fun t ht => (s2 t).2 ((s1 t).1 ht)
  rcases C119_complete h hn f1 with ⟨⟨t, ht, et⟩, e⟩ | ⟨h1, ⟨t, ht, et⟩, e⟩ | ⟨h1, lo, hi, h2, h3, e⟩
  · rw [e, C119_minus_infinity h' f2 (tr' t ht) et]
  · rw [e, C119_plus_infinity h' f2 (tr' t ht) et (fun t ht => h1 t (tr t ht))]
  · obtain ⟨lo', hi', h2', h3', e'⟩ := C119_finite (isa := isa') h' hn (fun t ht => h1 t (tr t ht))
    rw [hv] at h2 h3
    rw [e, e', h2.unique h2', h3.unique h3']

end

/-- Sixteen floats: 0, 1, 2 over and over, but NaN, plus infinity, minus infinity and 1000 in the fourth lane. -/
def wild : InBuf := Ex.buf (Ex.words32 [0, 0x3f800000, 0x40000000, 0x7fc00000, 0, 0x3f800000, 0x40000000, 0x7f800000,
  0, 0x3f800000, 0x40000000, 0xff800000, 0, 0x3f800000, 0x40000000, 0x447a0000])
/-- The same with zeros there. -/
def tame : InBuf := Ex.buf (Ex.words32 [0, 0x3f800000, 0x40000000, 0, 0, 0x3f800000, 0x40000000, 0,
  0, 0x3f800000, 0x40000000, 0, 0, 0x3f800000, 0x40000000, 0])

theorem wild_seen {t : Nat} (h : SeenIn .sse42 .f32 [(0, 16)] t) : t < 16 ∧ t % 4 < 3 := by
  obtain ⟨b, hb, _, h2, h3⟩ := h
  simp only [List.mem_singleton] at hb
  subst hb
  have h3 := h3 rfl
  have h2 : t < 16 := h2
  have h3 : 16 / 16 * 16 ≤ t ∨ t % 4 < 3 := by simpa using h3
  omega
theorem wild_fin : ∀ t, t < 16 → t % 4 < 3 → (elem .f32 wild.data 0 t).isFin = true := by decide +kernel
theorem wild_args : PArgs .f32 wild 16 [(0, 16)] .uint8 ∧ PArgs .f32 tame 16 [(0, 16)] .uint8 :=
  ⟨⟨rfl, by decide +kernel, rfl, by omega, rfl⟩, ⟨rfl, by decide +kernel, rfl, by omega, rfl⟩⟩

/-- `C119_finite` applied to a concrete case: NaN and both infinities are overlooked. -/
example := C119_finite (isa := .sse42) wild_args.1 (by omega) (fun t ht => wild_fin t (wild_seen ht).1 (wild_seen ht).2)
/-- ... `C119_complete` and `C119_finite_scale_iff` ... -/
theorem wild_num : SeenNum .sse42 .f32 wild [(0, 16)] := fun t ht => (isFin_not_nan (wild_fin t (wild_seen ht).1 (wild_seen ht).2)).1
example := C119_complete (isa := .sse42) wild_args.1 (by omega) wild_num
example := C119_finite_scale_iff (isa := .sse42) wild_args.1 (by omega) wild_num
/-- ... and `C119_unseen_ignored`. -/
example : computeQuantConfigFromData .sse42 .f32 wild [(0, 16)] .uint8 = computeQuantConfigFromData .sse42 .f32 tame [(0, 16)] .uint8 :=
  C119_unseen_ignored wild_args.1 wild_args.2 (by omega) wild_num
    (fun t ht => by
      have key : ∀ t, t < 16 → t % 4 < 3 → elem .f32 wild.data 0 t = elem .f32 tame.data 0 t := by decide +kernel
      exact key t (wild_seen ht).1 (wild_seen ht).2)
/-- `C119_minus_infinity` applied to a concrete case: the second of four floats in a tail of the SSE4.2 kernel. -/
example : computeQuantConfigFromData .sse42 .f32 withNinf [(0, 4)] .uint8 = .fail .ub :=
  C119_minus_infinity (n := 4) ⟨rfl, by decide +kernel, rfl, by omega, rfl⟩
    (fun t ht => by
      have key : ∀ t, t < 4 → (elem .f32 withNinf.data 0 t).isNaN = false := by decide +kernel
      exact key t (seenIn_lt (n := 4) (by exact ⟨rfl, by omega, rfl⟩) ht))
    (t := 2) ⟨(0, 4), by simp, by omega, by omega, fun _ => Or.inl (by omega)⟩ (by decide +kernel)
/-- `C119_plus_infinity` applied to a concrete case. -/
example : computeQuantConfigFromData .sse42 .f32 withInf [(0, 4)] .uint8 = .ret (Flt.inf false, 0) :=
  C119_plus_infinity (n := 4) ⟨rfl, by decide +kernel, rfl, by omega, rfl⟩
    (fun t ht => by
      have key : ∀ t, t < 4 → (elem .f32 withInf.data 0 t).isNaN = false := by decide +kernel
      exact key t (seenIn_lt (n := 4) (by exact ⟨rfl, by omega, rfl⟩) ht))
    (t := 2) ⟨(0, 4), by simp, by omega, by omega, fun _ => Or.inl (by omega)⟩ (by decide +kernel)
    (fun t ht => by
      have key : ∀ t, t < 4 → elem .f32 withInf.data 0 t ≠ Flt.inf true := by decide +kernel
      exact key t (seenIn_lt (n := 4) (by exact ⟨rfl, by omega, rfl⟩) ht))
/-- `C119_kernel_independent` applied to a concrete case. -/
example : computeQuantConfigFromData .avx2 .f32 withInf [(0, 4)] .uint8 = computeQuantConfigFromData .portable .f32 withInf [(0, 1), (1, 4)] .uint8 :=
  C119_kernel_independent (n := 4) ⟨rfl, by decide +kernel, rfl, by omega, rfl⟩ ⟨rfl, by decide +kernel, rfl, by omega, rfl, by omega, rfl⟩ (by omega)
    (by decide) (by decide) (by unfold NoNan; decide +kernel)

/-- The claim that an element that cannot be represented in the parameters is noticed on every CPU is false: the same sixteen floats give undefined behaviour on the portable kernels
(the minus infinity) and ordinary parameters on SSE4.2. -/
theorem C119_false_noticed : computeQuantConfigFromData .sse42 .f32 wild [(0, 16)] .uint8 = .ret (⟨false, 0x3c008081⟩, 0) ∧
    computeQuantConfigFromData .portable .f32 wild [(0, 16)] .uint8 = .fail .ub :=
  ⟨retIs_iff (by decide +kernel), failIs_iff (by decide +kernel)⟩

end Verif.Props
