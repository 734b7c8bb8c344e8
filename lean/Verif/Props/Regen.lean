import Verif.Props.Pipeline
import Verif.Props.Bf16Trip
import Verif.Props.Dequant2

/-!
# A round-tripped tensor given fresh parameters: C95

A quantized tensor is dequantized (received from a peer, loaded from disk), and the float tensor is quantized again with parameters
computed from it.
-/

namespace Verif.Props
open Spec

variable {isa : Isa} {ft : FT} {x : InBuf} {n : Nat} {blocks : List (Nat × Nat)} {dt : DType} {c c' : Ctx} {o o' : Nat} {m0 m0' : Mem}
  {s τ : F32} {z : ℤ}

/-- A grid point `k t` seen through a grid of slightly different step `s'`. -/
theorem regrid {t S s' Q ε v k : ℚ} (ht : 0 < t) (hQ : 3 ≤ Q ∧ Q ≤ 255) (he : 0 ≤ ε ∧ ε ≤ 1 / 16) (hS : |S - t| * Q ≤ 2 * ε * t)
    (hs : |s' - S| ≤ S / 2 ^ 23) : |s' - t| ≤ t * (ε + 1 / 2 ^ 21) ∧ 0 < s' ∧ (|k| ≤ Q → |v - k * t| ≤ ε * t → |v / s' - k| ≤ 1 / 4) := by
  have hεt : 0 ≤ ε * t := mul_nonneg he.1 ht.le
  have hεt2 : ε * t ≤ t / 16 := by
    have := mul_le_mul_of_nonneg_right he.2 ht.le; linarith
  have h3 : |S - t| * 3 ≤ 2 * ε * t := (mul_le_mul_of_nonneg_left hQ.1 (abs_nonneg _)).trans hS
  have a1 := abs_le.mp (show |S - t| ≤ 2 * (ε * t) / 3 by linarith)
  have hS2 : S ≤ 2 * t := by linarith [a1.2]
  have hs2 : |s' - S| ≤ t / 2 ^ 22 := hs.trans (by
    rw [div_le_div_iff₀ (by norm_num) (by norm_num)]; norm_num; linarith)
  have a2 := abs_le.mp hs2
  norm_num at a2
  have hlow : t * (9 / 10) ≤ s' := by linarith [a1.1, a2.1]
  have hpos : 0 < s' := lt_of_lt_of_le (by positivity) hlow
  refine ⟨?_, hpos, fun hk hv => ?_⟩
  · rw [abs_le]
    constructor <;> nlinarith [a1.1, a1.2, a2.1, a2.2]
  · have e : v / s' - k = ((v - k * t) + k * (t - s')) / s' := by field_simp; ring
    have b1 : |t - s'| * Q ≤ 2 * ε * t + t / 2 ^ 22 * 255 := by
      have : |t - s'| ≤ |S - t| + |s' - S| := by
        have := abs_add_le (t - S) (S - s')
        rw [sub_add_sub_cancel, abs_sub_comm t S, abs_sub_comm S s'] at this
        exact this
      have h1 : |s' - S| * Q ≤ t / 2 ^ 22 * 255 := mul_le_mul hs2 hQ.2 (by linarith) (by positivity)
      have h2 := mul_le_mul_of_nonneg_right this (show (0:ℚ) ≤ Q by linarith)
      rw [add_mul] at h2
      linarith
    have b2 : |k * (t - s')| ≤ 2 * ε * t + t / 2 ^ 22 * 255 := by
      rw [abs_mul, mul_comm]
      exact (mul_le_mul_of_nonneg_left hk (abs_nonneg _)).trans b1
    rw [e, abs_div, abs_of_pos hpos, div_le_iff₀ hpos]
    refine (abs_add_le _ _).trans ((add_le_add hv b2).trans ?_)
    norm_num
    linarith

/-- The computed parameters of data within `ε` steps of the grid points of scale `s` and zero point `z`, both ends of the grid
occupied. -/
theorem regen_core {ε : ℚ} (h : PArgs ft x n blocks dt) (hsm : SseSmall isa ft blocks) (hf : AllFin ft x n) (k : Nat → ℤ)
    (hz : 0 ≤ z ∧ z ≤ 2 ^ dt.bits - 1) (h1 : 1 / 2 ^ 90 ≤ s.toRat) (h2 : s.toRat ≤ 2 ^ 90) (he : 0 ≤ ε ∧ ε ≤ 1 / 16)
    (hk : ∀ i, i < n → 0 ≤ k i ∧ k i ≤ 2 ^ dt.bits - 1)
    (hv : ∀ i, i < n → |(elem ft.dtype x.data 0 i).toRat - ((k i - z : ℤ) : ℚ) * s.toRat| ≤ ε * s.toRat)
    (hlo : ∃ i, i < n ∧ k i = 0 ∧ (elem ft.dtype x.data 0 i).toRat ≤ 0) (hhi : ∃ i, i < n ∧ k i = 2 ^ dt.bits - 1 ∧ 0 ≤ (elem ft.dtype x.data 0 i).toRat) :
    ∃ s', computeQuantConfigFromData isa ft x blocks dt = .ret (s', z) ∧ |s'.toRat - s.toRat| ≤ s.toRat * (ε + 1 / 2 ^ 21) ∧
      s'.isFin = true ∧ 1 / 2 ^ 126 ≤ s'.toRat ∧ s'.toRat ≤ 2 ^ 119 ∧ (∃ A B, Covered ft x n dt s' z A B) ∧
      ∀ i, i < n → |(elem ft.dtype x.data 0 i).toRat / s'.toRat - ((k i - z : ℤ) : ℚ)| ≤ 1 / 4 := by
  obtain ⟨a, ha, ka, va⟩ := hlo
  obtain ⟨b, hb, kb, vb⟩ := hhi
  have hn : 0 < n := by omega
  obtain ⟨lo, hi, hr⟩ := range_exists (ft := ft) (x := x) hn
  have hs := sees_small (isa := isa) h hn hsm
  have hQ := qmax_bounds h.quant
  have hQ1 : (3:ℚ) ≤ 2 ^ dt.bits - 1 := by exact_mod_cast hQ.1
  have hQ2 : (2:ℚ) ^ dt.bits - 1 ≤ 255 := by exact_mod_cast hQ.2
  have ht : 0 < s.toRat := lt_of_lt_of_le (by positivity) h1
  obtain ⟨⟨⟨u, hu, eu⟩, gl⟩, ⟨w, hw, ew⟩, gh⟩ := id hr
  have la := gl ⟨a, ha, rfl⟩
  have hb' := gh ⟨b, hb, rfl⟩
  have fa := abs_le.mp (hv a ha)
  have fb := abs_le.mp (hv b hb)
  have fu := abs_le.mp (hv u hu)
  have fw := abs_le.mp (hv w hw)
  rw [← eu] at fu; rw [← ew] at fw
  rw [ka] at fa; rw [kb] at fb
  push_cast at fa fb fu fw
  set t := s.toRat
  have ku : (0:ℚ) ≤ k u := by exact_mod_cast (hk u hu).1
  have kw : (k w : ℚ) ≤ 2 ^ dt.bits - 1 := by exact_mod_cast (hk w hw).2
  have lu : (k u - z) * t ≥ (0 - z) * t := mul_le_mul_of_nonneg_right (by linarith) ht.le
  have lw : (k w - z) * t ≤ (2 ^ dt.bits - 1 - z) * t := mul_le_mul_of_nonneg_right (by linarith) ht.le
  have ewid : (2 ^ dt.bits - 1 - z) * t - (0 - z) * t = (2 ^ dt.bits - 1) * t := by ring
  have hεt2 : ε * t ≤ t / 16 := by have := mul_le_mul_of_nonneg_right he.2 ht.le; linarith
  have hεt : 0 ≤ ε * t := mul_nonneg he.1 ht.le
  have w1 : hi - lo ≤ (2 ^ dt.bits - 1) * t + 2 * (ε * t) := by linarith [fw.2, fu.1]
  have w2 : (2 ^ dt.bits - 1) * t - 2 * (ε * t) ≤ hi - lo := by linarith [fa.2, fb.1]
  have m1 : 3 * t ≤ (2 ^ dt.bits - 1) * t := mul_le_mul_of_nonneg_right hQ1 ht.le
  have m2 : (2 ^ dt.bits - 1) * t ≤ 255 * t := mul_le_mul_of_nonneg_right hQ2 ht.le
  have har : Around ft x n lo hi := by
    refine ⟨hf, hr, ⟨la.trans va, vb.trans hb'⟩, ?_, ?_⟩
    · have : (1:ℚ) / 2 ^ 100 ≤ 1 / 2 ^ 90 := by norm_num
      linarith
    · have : (256:ℚ) * 2 ^ 90 ≤ 2 ^ 100 := by norm_num
      linarith
  obtain ⟨s', z', hp, q0, q1, q2, hstep, A, B, hcov⟩ := computed_step h hs har
  have hS : |step dt lo hi - t| * (2 ^ dt.bits - 1) ≤ 2 * ε * t := by
    have hp : (0:ℚ) < 2 ^ dt.bits - 1 := by linarith
    have e : |step dt lo hi - t| * (2 ^ dt.bits - 1) = |(hi - lo) - (2 ^ dt.bits - 1) * t| := by
      have e1 : |step dt lo hi - t| * (2 ^ dt.bits - 1) = |step dt lo hi - t| * |(2:ℚ) ^ dt.bits - 1| := by rw [abs_of_pos hp]
      have e2 : (step dt lo hi - t) * (2 ^ dt.bits - 1) = (hi - lo) - (2 ^ dt.bits - 1) * t := by
        unfold step
        rw [sub_mul, div_mul_cancel₀ _ hp.ne', mul_comm t]
      rw [e1, ← abs_mul, e2]
    rw [e, abs_le]
    constructor <;> linarith
  have main := fun v k' => regrid (v := v) (k := k') ht ⟨hQ1, hQ2⟩ he hS hstep
  have hzz : z' = z := by
    have hlt : lo < hi := by have := har.pos; linarith
    obtain ⟨g1, _⟩ := computed_near h hn hf hs hr har.zero hlt hp q1 (q2.trans (by norm_num))
    have hz1 : (0:ℚ) ≤ z := by exact_mod_cast hz.1
    have hz2 : (z:ℚ) ≤ 2 ^ dt.bits - 1 := by exact_mod_cast hz.2
    have g2 := (main lo (-z)).2.2 (by rw [abs_neg, abs_of_nonneg hz1]; exact hz2) (by rw [abs_le]; constructor <;> linarith [fa.2, fu.1])
    have g3 : |((z' - z : ℤ) : ℚ)| < 1 := by
      push_cast
      have e : (z':ℚ) - z = (z' - -lo / s'.toRat) + -(lo / s'.toRat - -z) := by ring
      rw [e]
      have g2' : |-(lo / s'.toRat - -(z:ℚ))| ≤ 1 / 4 := by rw [abs_neg]; exact g2
      exact lt_of_le_of_lt ((abs_add_le _ _).trans (add_le_add g1 g2')) (by norm_num)
    have g4 : |z' - z| < 1 := by exact_mod_cast g3
    have := Int.abs_lt_one_iff.mp g4
    omega
  subst hzz
  refine ⟨s', hp, (main 0 0).1, q0, q1, q2, ⟨A, B, hcov⟩, fun i hi => (main _ _).2.2 ?_ (hv i hi)⟩
  have := hk i hi
  have g : |k i - z'| ≤ 2 ^ dt.bits - 1 := by rw [abs_le]; omega
  exact_mod_cast g

/-- The codes of a nearest quantize call whose data lies within a quarter step of grid points. -/
theorem regen_codes {A B : ℚ} (k : Nat → ℤ) (hc : Covered ft x n dt s z A B) (hq : QArgs c.threads x ft.dtype dt n) (hf : AllFin ft x n)
    (h1 : 1 / 2 ^ 126 ≤ s.toRat) (h2 : s.toRat ≤ 2 ^ 119) (hk : ∀ i, i < n → |(elem ft.dtype x.data 0 i).toRat / s.toRat - ((k i - z : ℤ) : ℚ)| ≤ 1 / 4) :
    Always NoFault (quantize c x ft.dtype o (bytes dt.bits n) dt s z .nearest τ) (span o (bytes dt.bits n)) m0 (fun m => ∀ i, i < n → (code dt.bits m o i : ℤ) = k i) := by
  refine (codes_near hc hq hf h1 h2 (fun h => by cases h)).mono (fun _ h => h) (fun m hm i hi => ?_)
  obtain ⟨_, g⟩ := hm i hi
  have e : ((((code dt.bits m o i : ℤ) - k i : ℤ)) : ℚ) = ((((code dt.bits m o i : ℤ) - z : ℤ) : ℚ) - (elem ft.dtype x.data 0 i).toRat / s.toRat) +
      ((elem ft.dtype x.data 0 i).toRat / s.toRat - ((k i - z : ℤ) : ℚ)) := by push_cast; ring
  have g3 : |(((code dt.bits m o i : ℤ) - k i : ℤ) : ℚ)| < 1 := by
    rw [e]
    refine lt_of_le_of_lt ((abs_add_le _ _).trans (add_le_add g (hk i hi))) ?_
    unfold tol; norm_num
  have g4 : |(code dt.bits m o i : ℤ) - k i| < 1 := by exact_mod_cast g3
  have := Int.abs_lt_one_iff.mp g4
  omega

theorem code_range (hdt : dt.isQuant = true) (m : Mem) (i : Nat) : (0:ℤ) ≤ (code dt.bits m 0 i : ℤ) ∧ (code dt.bits m 0 i : ℤ) ≤ 2 ^ dt.bits - 1 := by
  have hc1 := code_le (dt := dt) m 0 i
  have hone : 1 ≤ 2 ^ dt.bits := Nat.one_le_two_pow
  have : ((code dt.bits m 0 i : ℕ) : ℤ) ≤ ((2 ^ dt.bits - 1 : ℕ) : ℤ) := by exact_mod_cast hc1
  rw [Nat.cast_sub hone] at this
  exact ⟨by positivity, by exact_mod_cast this⟩

/-- C95, what holds for float32: codes in which both the smallest and the largest code occur are dequantized, and parameters
are computed from the resulting tensor.  They are the old zero point, exactly, and the old scale up to `2^-15` of it; and
quantizing with them (nearest) gives back every code.  Missing: tensors that do not use both extreme codes, for which the claim is
false (`C95_false_unused_extremes`). -/
theorem C95_codes_survive_new_parameters_partial (h : DArgs c.threads x dt .f32 n) (hr : Readable dt .f32 n x.size) (h' : Sizes n c'.threads)
    (hf : s.isFin = true) (h1 : 1 / 2 ^ 90 ≤ s.toRat) (h2 : s.toRat ≤ 2 ^ 90) (hz : 0 ≤ z ∧ z ≤ 2 ^ dt.bits - 1)
    (hlo : ∃ i, i < n ∧ code dt.bits x.data 0 i = 0) (hhi : ∃ i, i < n ∧ code dt.bits x.data 0 i = 2 ^ dt.bits - 1)
    (hb : Split n 0 blocks) (hsm : SseSmall isa .f32 blocks) :
    Always NoFault (dequantize c x (bytes dt.bits n) dt o (4 * n) .f32 s z .set) (span o (4 * n)) m0 (fun m =>
      ∃ s', computeQuantConfigFromData isa .f32 ⟨4 * n, fun a => m (o + a)⟩ blocks dt = .ret (s', z) ∧ |s'.toRat - s.toRat| ≤ s.toRat / 2 ^ 15 ∧
        Always NoFault (quantize c' ⟨4 * n, fun a => m (o + a)⟩ .f32 o' (bytes dt.bits n) dt s' z .nearest τ) (span o' (bytes dt.bits n)) m0' (fun m' =>
          ∀ i, i < n → code dt.bits m' o' i = code dt.bits x.data 0 i)) := by
  have hcb := codeBound h.inQuant
  have hzs : ZpSub z := by unfold ZpSub; norm_num; omega
  have h1' : 1 / 2 ^ 126 ≤ s.toRat := le_trans (by norm_num) h1
  have h2' : s.toRat ≤ 2 ^ 119 := h2.trans (by norm_num)
  have ht : 0 < s.toRat := lt_of_lt_of_le (by positivity) h1
  refine (C09_dequantize_f32_formula h hr hzs).mono (fun _ h => h) (fun m hm => ?_)
  have e : ∀ i, i < n → elem .f32 (fun a => m (o + a)) 0 i = dequant s z (code dt.bits x.data 0 i) := fun i hi => by
    show f32At (fun a => m (o + a)) (0 + 4 * i) = _
    rw [f32At_shift, Nat.zero_add, hm i hi]
  have hcr := code_range h.inQuant x.data
  have hk : ∀ i, |((code dt.bits x.data 0 i : ℕ) : ℤ) - z| ≤ 255 := fun i => by
    have := hcr i; rw [abs_le]; omega
  have near : ∀ i, i < n → (elem .f32 (fun a => m (o + a)) 0 i).isFin = true ∧
      |(elem .f32 (fun a => m (o + a)) 0 i).toRat - (((code dt.bits x.data 0 i : ℤ) - z : ℤ) : ℚ) * s.toRat| ≤ 255 / 2 ^ 24 * s.toRat := fun i hi => by
    rw [e i hi]
    obtain ⟨g1, g2⟩ := dequant_near (hk i) hf h1' h2'
    exact ⟨g1, g2.trans (le_of_eq (by ring))⟩
  have hfin : AllFin .f32 ⟨4 * n, fun a => m (o + a)⟩ n := fun i hi => (near i hi).1
  have sgn : ∀ i, i < n → ((code dt.bits x.data 0 i : ℤ) ≤ z → (elem .f32 (fun a => m (o + a)) 0 i).toRat ≤ 0) ∧
      (z ≤ (code dt.bits x.data 0 i : ℤ) → 0 ≤ (elem .f32 (fun a => m (o + a)) 0 i).toRat) := fun i hi => by
    have hc := code_lt256 h.inQuant x.data 0 i
    rw [e i hi, (dequant_toRat hf hzs hc).1]
    constructor
    · intro hle
      have : (((code dt.bits x.data 0 i : ℤ) - z : ℤ) : ℚ) ≤ 0 := by exact_mod_cast (by omega : (code dt.bits x.data 0 i : ℤ) - z ≤ 0)
      have := flr_mono (f := f32) this
      rw [flr_zero] at this
      have := flr_mono (f := f32) (mul_nonpos_of_nonpos_of_nonneg this ht.le)
      rwa [flr_zero] at this
    · intro hle
      have : (0:ℚ) ≤ (((code dt.bits x.data 0 i : ℤ) - z : ℤ) : ℚ) := by exact_mod_cast (by omega : 0 ≤ (code dt.bits x.data 0 i : ℤ) - z)
      have := flr_mono (f := f32) this
      rw [flr_zero] at this
      have := flr_mono (f := f32) (mul_nonneg this ht.le)
      rwa [flr_zero] at this
  have hp : PArgs .f32 ⟨4 * n, fun a => m (o + a)⟩ n blocks dt := ⟨h.inQuant, le_refl _, hb⟩
  obtain ⟨a, ha, ka⟩ := hlo
  obtain ⟨b, hb', kb⟩ := hhi
  have hone : 1 ≤ 2 ^ dt.bits := Nat.one_le_two_pow
  have kb' : (code dt.bits x.data 0 b : ℤ) = 2 ^ dt.bits - 1 := by rw [kb, Nat.cast_sub hone]; norm_num
  obtain ⟨s', g1, g2, g3, g4, g5, ⟨A, B, g6⟩, g7⟩ := regen_core (isa := isa) (s := s) (z := z) (ε := 255 / 2 ^ 24) hp hsm hfin
    (fun i => (code dt.bits x.data 0 i : ℤ)) hz h1 h2 ⟨by norm_num, by norm_num⟩ (fun i _ => hcr i) (fun i hi => (near i hi).2)
    ⟨a, ha, by simp only [ka]; rfl, (sgn a ha).1 (by rw [ka]; exact hz.1)⟩ ⟨b, hb', kb', (sgn b hb').2 (by rw [kb']; exact hz.2)⟩
  refine ⟨s', g1, g2.trans ?_, ?_⟩
  · have : s.toRat * (255 / 2 ^ 24 + 1 / 2 ^ 21) ≤ s.toRat * (1 / 2 ^ 15) := mul_le_mul_of_nonneg_left (by norm_num) ht.le
    exact this.trans (le_of_eq (by ring))
  · have hq : QArgs c'.threads ⟨4 * n, fun a => m (o + a)⟩ .f32 dt n := ⟨rfl, h.inQuant, rfl, h'⟩
    exact (regen_codes (c := c') (τ := τ) _ g6 hq hfin g4 g5 g7).mono (fun _ h => h) (fun m' hm' i hi => by exact_mod_cast hm' i hi)

/-- `C95_codes_survive_new_parameters_partial` applied to a concrete case. -/
example := C95_codes_survive_new_parameters_partial (isa := .avx2) (c := Ex.c1) (x := Ex.codes) (dt := .uint4) (n := 139) (o := 1000) (s := Ex.tenth) (τ := Ex.quarter)
    (z := 7) (m0 := Ex.old) (c' := Ex.c2) (o' := 3000) (m0' := Ex.old) (blocks := [(0, 64), (64, 139)]) (h := by wit) (hr := by wit) (h' := by wit) (hf := by wit)
    (h1 := by decide +kernel) (h2 := by decide +kernel) (hz := by wit) (hlo := ⟨0, by omega, by decide +kernel⟩) (hhi := ⟨14, by omega, by decide +kernel⟩)
    (hb := ⟨rfl, by omega, rfl, by omega, rfl⟩) (hsm := fun h => by cases h)

theorem bf16At_shift (m : Mem) (o i : Nat) : elem .bf16 (fun a => m (o + a)) 0 i = bf16At m (o + 2 * i) := by
  show bf16At (fun a => m (o + a)) (0 + 2 * i) = _
  unfold bf16At u16At
  simp only [Nat.zero_add, Nat.add_assoc]

/-- The same through a bf16 tensor, for uint4 and uint2 and a zero point that is neither of the extreme codes; the new scale is
within `1/15` of the old one.  Missing: tensors that do not use both extreme codes, uint8 (where `C57_false_uint8` shows that codes
can change even with the old parameters), and zero points at the ends of the range. -/
theorem C95_codes_survive_bf16_partial (h : DArgs c.threads x dt .bf16 n) (h8 : dt ≠ .uint8) (h' : Sizes n c'.threads)
    (h1 : 1 / 2 ^ 90 ≤ s.toRat) (h2 : s.toRat ≤ 2 ^ 90) (hz : 0 < z ∧ z < 2 ^ dt.bits - 1)
    (hlo : ∃ i, i < n ∧ code dt.bits x.data 0 i = 0) (hhi : ∃ i, i < n ∧ code dt.bits x.data 0 i = 2 ^ dt.bits - 1)
    (hb : Split n 0 blocks) (hsm : SseSmall isa .bf16 blocks) :
    Always NoFault (dequantize c x (bytes dt.bits n) dt o (2 * n) .bf16 s z .set) (span o (2 * n)) m0 (fun m =>
      ∃ s', computeQuantConfigFromData isa .bf16 ⟨2 * n, fun a => m (o + a)⟩ blocks dt = .ret (s', z) ∧ |s'.toRat - s.toRat| ≤ s.toRat / 15 ∧
        Always NoFault (quantize c' ⟨2 * n, fun a => m (o + a)⟩ .bf16 o' (bytes dt.bits n) dt s' z .nearest τ) (span o' (bytes dt.bits n)) m0' (fun m' =>
          ∀ i, i < n → code dt.bits m' o' i = code dt.bits x.data 0 i)) := by
  have h1' : 1 / 2 ^ 125 ≤ s.toRat := le_trans (by norm_num) h1
  have h2' : s.toRat ≤ 2 ^ 118 := h2.trans (by norm_num)
  have ht : 0 < s.toRat := lt_of_lt_of_le (by positivity) h1
  have hz' : 0 ≤ z ∧ z ≤ 2 ^ dt.bits - 1 := ⟨hz.1.le, hz.2.le⟩
  have hQ4 : (2:ℤ) ^ dt.bits - 1 ≤ 15 := by
    have := h.inQuant
    cases dt <;> first | exact absurd rfl h8 | exact absurd this (by decide) | decide
  refine (dequant_bf16_near h hz' h1' h2').mono (fun _ h => h) (fun m hm => ?_)
  have hcr := code_range h.inQuant x.data
  have near : ∀ i, i < n → (elem .bf16 (fun a => m (o + a)) 0 i).isFin = true ∧
      |(elem .bf16 (fun a => m (o + a)) 0 i).toRat - (((code dt.bits x.data 0 i : ℤ) - z : ℤ) : ℚ) * s.toRat| ≤ 1 / 16 * s.toRat := fun i hi => by
    rw [bf16At_shift]
    obtain ⟨g1, g2⟩ := hm i hi
    refine ⟨g1, g2.trans ?_⟩
    rw [mul_comm]
    apply mul_le_mul_of_nonneg_right _ ht.le
    have hc := hcr i
    have k15 : |(code dt.bits x.data 0 i : ℤ) - z| ≤ 15 := by rw [abs_le]; omega
    have k15' : |(((code dt.bits x.data 0 i : ℤ) - z : ℤ) : ℚ)| ≤ 15 := by exact_mod_cast k15
    have := max_le k15' (show (1:ℚ) ≤ 15 by norm_num)
    have e1 : (15:ℚ) / 2 ^ 8 + 1 / 2 ^ 14 ≤ 1 / 16 := by norm_num
    have e2 := div_le_div_of_nonneg_right this (show (0:ℚ) ≤ 2 ^ 8 by positivity)
    linarith
  have hfin : AllFin .bf16 ⟨2 * n, fun a => m (o + a)⟩ n := fun i hi => (near i hi).1
  have sgn : ∀ i, i < n → ((code dt.bits x.data 0 i : ℤ) < z → (elem .bf16 (fun a => m (o + a)) 0 i).toRat ≤ 0) ∧
      (z < (code dt.bits x.data 0 i : ℤ) → 0 ≤ (elem .bf16 (fun a => m (o + a)) 0 i).toRat) := fun i hi => by
    have g := abs_le.mp (near i hi).2
    constructor
    · intro hle
      have : (((code dt.bits x.data 0 i : ℤ) - z : ℤ) : ℚ) ≤ -1 := by exact_mod_cast (by omega : (code dt.bits x.data 0 i : ℤ) - z ≤ -1)
      have := mul_le_mul_of_nonneg_right this ht.le
      linarith [g.2]
    · intro hle
      have : (1:ℚ) ≤ (((code dt.bits x.data 0 i : ℤ) - z : ℤ) : ℚ) := by exact_mod_cast (by omega : 1 ≤ (code dt.bits x.data 0 i : ℤ) - z)
      have := mul_le_mul_of_nonneg_right this ht.le
      linarith [g.1]
  have hp : PArgs .bf16 ⟨2 * n, fun a => m (o + a)⟩ n blocks dt := ⟨h.inQuant, le_refl _, hb⟩
  obtain ⟨a, ha, ka⟩ := hlo
  obtain ⟨b, hb', kb⟩ := hhi
  have hone : 1 ≤ 2 ^ dt.bits := Nat.one_le_two_pow
  have kb' : (code dt.bits x.data 0 b : ℤ) = 2 ^ dt.bits - 1 := by rw [kb, Nat.cast_sub hone]; norm_num
  obtain ⟨s', g1, g2, g3, g4, g5, ⟨A, B, g6⟩, g7⟩ := regen_core (isa := isa) (s := s) (z := z) (ε := 1 / 16) hp hsm hfin
    (fun i => (code dt.bits x.data 0 i : ℤ)) hz' h1 h2 ⟨by norm_num, by norm_num⟩ (fun i _ => hcr i) (fun i hi => (near i hi).2)
    ⟨a, ha, by simp only [ka]; rfl, (sgn a ha).1 (by rw [ka]; exact hz.1)⟩ ⟨b, hb', kb', (sgn b hb').2 (by rw [kb']; exact hz.2)⟩
  refine ⟨s', g1, g2.trans ?_, ?_⟩
  · have : s.toRat * (1 / 16 + 1 / 2 ^ 21) ≤ s.toRat * (1 / 15) := mul_le_mul_of_nonneg_left (by norm_num) ht.le
    exact this.trans (le_of_eq (by ring))
  · have hq : QArgs c'.threads ⟨2 * n, fun a => m (o + a)⟩ .bf16 dt n := ⟨rfl, h.inQuant, rfl, h'⟩
    exact (regen_codes (c := c') (τ := τ) _ g6 hq hfin g4 g5 g7).mono (fun _ h => h) (fun m' hm' i hi => by exact_mod_cast hm' i hi)

/-- `C95_codes_survive_bf16_partial` applied to a concrete case. -/
example := C95_codes_survive_bf16_partial (isa := .avx2) (c := Ex.c1) (x := Ex.codes) (dt := .uint4) (n := 139) (o := 1000) (s := Ex.tenth) (τ := Ex.quarter)
    (z := 7) (m0 := Ex.old) (c' := Ex.c2) (o' := 3000) (m0' := Ex.old) (blocks := [(0, 64), (64, 139)]) (h := by wit) (h8 := by decide) (h' := by wit)
    (h1 := by decide +kernel) (h2 := by decide +kernel) (hz := by decide) (hlo := ⟨0, by omega, by decide +kernel⟩) (hhi := ⟨14, by omega, by decide +kernel⟩)
    (hb := ⟨rfl, by omega, rfl, by omega, rfl⟩) (hsm := fun h => by cases h)

/-- The float nearest to 2/15 (slightly above it). -/
def twoFifteenths : F32 := ⟨false, 0x3e088889⟩

/-- C95 is false for tensors that do not use both extreme codes: the uint4 codes 0, 1, 2 with scale 1 and zero point 0 are the values
0, 1, 2, whose parameters are scale 2/15 (rounded) and zero point 0; quantizing with these gives 0, 7, 15, and the middle value is now
0.93…, not 1: the loss is real, not a renaming of codes. -/
theorem C95_false_unused_extremes :
    Always NoFault (dequantize ⟨.portable, 1, .none⟩ (Ex.buf [0x10, 0x02]) 2 .uint4 64 12 .f32 f1 0 .set) (span 64 12) Ex.old
      (fun m => (List.range 12).map (fun j => m (64 + j)) = Ex.words32 [0, 0x3f800000, 0x40000000]) ∧
    computeQuantConfigFromData .portable .f32 (Ex.buf (Ex.words32 [0, 0x3f800000, 0x40000000])) [(0, 3)] .uint4 = .ret (twoFifteenths, 0) ∧
    Always NoFault (quantize ⟨.portable, 1, .none⟩ (Ex.buf (Ex.words32 [0, 0x3f800000, 0x40000000])) .f32 64 2 .uint4 twoFifteenths 0 .nearest f0) (span 64 2) Ex.old
      (fun m => [code 4 m 64 0, code 4 m 64 1, code 4 m 64 2] = [0, 7, 15]) ∧
    (dequant twoFifteenths 0 7).toRat < 15 / 16 := by
  refine ⟨?_, retIs_iff (by decide +kernel), ?_, by decide +kernel⟩
  · have h : DArgs 1 (Ex.buf [0x10, 0x02]) .uint4 .f32 3 := ⟨rfl, rfl, by decide, sz 3 1⟩
    exact dequantize_result (c := ⟨.portable, 1, .none⟩) (n := 3) (o := 64) (scale := f1) (zp := 0) (op := .set) (m0 := Ex.old) h (by unfold Readable; decide) (by decide +kernel)
  · refine (quantize_result (dtOut := .uint4) (n := 3) (l := [112, 15]) (c := ⟨.portable, 1, .none⟩) ⟨rfl, rfl, by decide, sz 3 1⟩ (by decide +kernel)).mono (fun _ h => h) (fun m hm => ?_)
    have hm : [m 64, m 65] = [112, 15] := hm
    simp only [List.cons.injEq, and_true] at hm
    unfold code
    simp [hm.1, hm.2]

end Verif.Props
