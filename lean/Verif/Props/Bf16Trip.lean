import Verif.Props.Examples
import Verif.Props.Fused
import Verif.Props.QuantNeg
import Verif.Proofs.Bf16Trip

/-!
# Round trips through bf16 tensors: C57, C58
-/

namespace Verif.Props
open Spec

variable {ft : FT} {x : InBuf} {n : Nat} {dt : DType} {c c' : Ctx} {o o' : Nat} {m0 m0' : Mem} {s τ : F32} {z : ℤ}

theorem u16At_lt (m : Mem) (a : Nat) : u16At m a < 65536 := by unfold u16At; omega

/-- What dequantize to bf16 stores, on every kernel: the bf16 nearest to a float within `2^-15` steps of `(q - zp) s`,
or (a kernel that flushes subnormals) zero. -/
theorem dequant_bf16_word (h : DArgs c.threads x dt .bf16 n) (hz : 0 ≤ z ∧ z ≤ 2 ^ dt.bits - 1) (h1 : 1 / 2 ^ 125 ≤ s.toRat) (h2 : s.toRat ≤ 2 ^ 118) :
    Always NoFault (dequantize c x (bytes dt.bits n) dt o (2 * n) .bf16 s z .set) (span o (2 * n)) m0 (fun m =>
      ∀ i, i < n → ∃ v : F32, v.isFin = true ∧ |v.toRat - (((code dt.bits x.data 0 i : ℤ) - z : ℤ) : ℚ) * s.toRat| ≤ s.toRat / 2 ^ 15 ∧
        (IsBf16Of v (u16At m (o + 2 * i)) ∨ (|v.toRat| < 1 / 2 ^ 126 ∧ u16At m (o + 2 * i) % 32768 = 0))) := by
  have hs : 0 < s.toRat := lt_of_lt_of_le (by positivity) h1
  have hsf : s.isFin = true := isFin_of_abs (by
    rw [abs_of_pos hs, emax_f32]; exact lt_of_le_of_lt h2 (by norm_num))
  have h1' : 1 / 2 ^ 126 ≤ s.toRat := le_trans (by norm_num) h1
  have h2' : s.toRat ≤ 2 ^ 119 := h2.trans (by norm_num)
  have hb := codeBound h.inQuant
  have hzs : ZpSub z := by unfold ZpSub; norm_num; omega
  refine (C09_dequantize_bf16_any_kernel_partial h hzs (fun _ => by rw [abs_of_nonneg hz.1]; norm_num; omega)).mono (fun _ h => h) (fun m hm i hi => ?_)
  obtain ⟨v, hv, hw⟩ := hm i hi
  have hc := code_lt256 h.inQuant x.data 0 i
  have hc2 := code_le (dt := dt) x.data 0 i
  have hk : |(code dt.bits x.data 0 i : ℤ) - z| ≤ 255 := by rw [abs_le]; omega
  have near : v.isFin = true ∧ |v.toRat - (((code dt.bits x.data 0 i : ℤ) - z : ℤ) : ℚ) * s.toRat| ≤ s.toRat / 2 ^ 15 := by
    rcases hv with rfl | ⟨_, h8, rfl⟩
    · obtain ⟨g1, g2⟩ := dequant_near hk hsf h1' h2'
      refine ⟨g1, g2.trans ?_⟩
      rw [div_le_div_iff₀ (by positivity) (by positivity)]; norm_num; linarith
    · have hQ : dt.bits ≤ 4 := by
        have := h.inQuant
        cases dt <;> simp [DType.isQuant, DType.bits] at * 
      have hp : 2 ^ dt.bits ≤ 2 ^ 4 := Nat.pow_le_pow_right (by norm_num) hQ
      have hp' : (2:ℤ) ^ dt.bits ≤ 16 := by exact_mod_cast hp
      exact fmaDequant_near16 (by norm_num at hp; omega) ⟨hz.1, by omega⟩ hsf h1' h2'
  refine ⟨v, near.1, near.2, ?_⟩
  rcases hw with hw | ⟨_, _, g, g'⟩
  · exact Or.inl hw
  · exact Or.inr ⟨g, g'⟩

/-- What dequantize to bf16 leaves, on every kernel: a float within `max(|q - zp|, 1)/256` steps of `(q - zp) s`. -/
theorem dequant_bf16_near (h : DArgs c.threads x dt .bf16 n) (hz : 0 ≤ z ∧ z ≤ 2 ^ dt.bits - 1) (h1 : 1 / 2 ^ 125 ≤ s.toRat) (h2 : s.toRat ≤ 2 ^ 118) :
    Always NoFault (dequantize c x (bytes dt.bits n) dt o (2 * n) .bf16 s z .set) (span o (2 * n)) m0 (fun m =>
      ∀ i, i < n → (bf16At m (o + 2 * i)).isFin = true ∧
        |(bf16At m (o + 2 * i)).toRat - (((code dt.bits x.data 0 i : ℤ) - z : ℤ) : ℚ) * s.toRat| ≤
          s.toRat * (max |(((code dt.bits x.data 0 i : ℤ) - z : ℤ) : ℚ)| 1 / 2 ^ 8 + 1 / 2 ^ 14)) := by
  have hb := codeBound h.inQuant
  refine (dequant_bf16_word h hz h1 h2).mono (fun _ h => h) (fun m hm i hi => ?_)
  obtain ⟨v, g1, g2, hw⟩ := hm i hi
  have hc := code_lt256 h.inQuant x.data 0 i
  have hk : |(code dt.bits x.data 0 i : ℤ) - z| ≤ 255 := by rw [abs_le]; omega
  exact word_near hk h1 h2 g1 g2 (u16At_lt _ _) hw

/-! ## C57 -/

/-- C57, what holds: dequantizing to bf16 (any kernel, threads, schedule) and quantizing the bf16 tensor
with nearest rounding (any other kernel, threads, schedule) restores every code within 127 steps of the zero
point — in particular every uint2 and uint4 code — and is off by at most one for the others.  Missing:
uint8 codes more than 127 steps away from the zero point, where the claim is false (`C57_false_uint8`). -/
theorem C57_bf16_requantize_partial (h : DArgs c.threads x dt .bf16 n) (h' : Sizes n c'.threads)
    (hz : 0 ≤ z ∧ z ≤ 2 ^ dt.bits - 1) (h1 : 1 / 2 ^ 125 ≤ s.toRat) (h2 : s.toRat ≤ 2 ^ 118) :
    Always NoFault (dequantize c x (bytes dt.bits n) dt o (2 * n) .bf16 s z .set) (span o (2 * n)) m0 (fun m =>
      Always NoFault (quantize c' ⟨2 * n, fun a => m (o + a)⟩ .bf16 o' (bytes dt.bits n) dt s z .nearest τ) (span o' (bytes dt.bits n)) m0' (fun m' =>
        ∀ i, i < n → |(code dt.bits m' o' i : ℤ) - code dt.bits x.data 0 i| ≤ 1 ∧
          (|(code dt.bits x.data 0 i : ℤ) - z| ≤ 127 → code dt.bits m' o' i = code dt.bits x.data 0 i))) := by
  have hs : 0 < s.toRat := lt_of_lt_of_le (by positivity) h1
  have hsf : s.isFin = true := isFin_of_abs (by
    rw [abs_of_pos hs, emax_f32]; exact lt_of_le_of_lt h2 (by norm_num))
  have h1' : 1 / 2 ^ 126 ≤ s.toRat := le_trans (by norm_num) h1
  have h2' : s.toRat ≤ 2 ^ 126 := h2.trans (by norm_num)
  have hb := codeBound h.inQuant
  refine (dequant_bf16_near h hz h1 h2).mono (fun _ h => h) (fun m hm => ?_)
  have e : ∀ i, elem .bf16 (fun a => m (o + a)) 0 i = bf16At m (o + 2 * i) := fun i => by
    show bf16At (fun a => m (o + a)) (0 + 2 * i) = _
    unfold bf16At u16At
    simp only [Nat.zero_add, Nat.add_assoc]
  have hk : ∀ i, |(code dt.bits x.data 0 i : ℤ) - z| ≤ 255 := fun i => by
    have hc2 := code_lt256 h.inQuant x.data 0 i
    rw [abs_le]; omega
  have key : ∀ i, i < n → (scaled (bf16At m (o + 2 * i)) s).isFin = true ∧
      |(scaled (bf16At m (o + 2 * i)) s).toRat - (((code dt.bits x.data 0 i : ℤ) - z : ℤ) : ℚ)| ≤
        max |(((code dt.bits x.data 0 i : ℤ) - z : ℤ) : ℚ)| 1 / 2 ^ 8 + 1 / 2 ^ 13 := fun i hi => rescale_word (hk i) hsf h1' h2' (hm i hi).1 (hm i hi).2
  have hfits : ∀ i, i < n → Fits 32 (scaled (elem .bf16 (fun a => m (o + a)) 0 i) s) z := fun i hi => by
    rw [e]
    exact word_fits (key i hi).1 (hk i) ⟨hz.1, by omega⟩ (word_lt_one (hk i) (key i hi).2)
  have hz22 : |z| ≤ 2 ^ 22 := by rw [abs_of_nonneg hz.1]; norm_num; omega
  have hq : QArgs c'.threads ⟨2 * n, fun a => m (o + a)⟩ .bf16 dt n := ⟨rfl, h.inQuant, rfl, h'⟩
  refine (C07_vector_nearest (c := c') hq hz22 hfits).mono (fun _ h => h) (fun m' hm' i hi => ?_)
  have hcode : ∃ r : ℤ, NearInt (scaled (bf16At m (o + 2 * i)) s).toRat r ∧ (code dt.bits m' o' i : ℤ) = sat dt.bits (r + z) := by
    have := hm' i hi
    rw [show elem .bf16 (InBuf.data ⟨2 * n, fun a => m (o + a)⟩) 0 i = bf16At m (o + 2 * i) from e i] at this
    rcases this with g | ⟨g1, g2⟩
    · exact ⟨_, Or.inl rfl, g⟩
    · exact ⟨_, Or.inr ⟨g1, rfl⟩, g2⟩
  obtain ⟨r, hr, er⟩ := hcode
  have hc1 := code_le (dt := dt) x.data 0 i
  have hone : 1 ≤ 2 ^ dt.bits := Nat.one_le_two_pow
  have hc3 : (code dt.bits x.data 0 i : ℤ) ≤ 2 ^ dt.bits - 1 := by
    have : ((code dt.bits x.data 0 i : ℕ) : ℤ) ≤ ((2 ^ dt.bits - 1 : ℕ) : ℤ) := by exact_mod_cast hc1
    rw [Nat.cast_sub hone] at this
    exact_mod_cast this
  constructor
  · have := word_off_by_one (word_lt_one (hk i) (key i hi).2) hr
    rw [er, abs_le]; unfold sat; omega
  · intro h127
    have hrk := word_exact h127 (key i hi).2 hr
    rw [hrk, sub_add_cancel, sat_id (by omega) hc3] at er
    exact_mod_cast er

/-- `C57_bf16_requantize_partial` applied to a concrete case. -/
example := C57_bf16_requantize_partial (x := Ex.codes) (n := 139) (dt := .uint4) (c := Ex.c1) (c' := Ex.c2) (o := 1000) (o' := 3000) (m0 := Ex.old)
    (m0' := Ex.old) (s := Ex.tenth) (τ := Ex.quarter) (z := 7) (h := by wit) (h' := by wit) (hz := by wit) (h1 := by wit) (h2 := by wit)

/-- Five uint4 codes with scale 0.1 and zero point 3. -/
example : DArgs 3 (Ex.buf [0x21, 0xf7, 0x08]) .uint4 .bf16 5 ∧ Sizes 5 7 ∧ (0:ℤ) ≤ 3 ∧ (3:ℤ) ≤ 2 ^ DType.uint4.bits - 1 ∧ 1 / 2 ^ 125 ≤ Ex.tenth.toRat ∧ Ex.tenth.toRat ≤ 2 ^ 118 :=
  ⟨⟨rfl, rfl, by decide, by omega, by norm_num, by norm_num⟩, ⟨by omega, by norm_num, by norm_num⟩, by decide, by decide, by decide +kernel, by decide +kernel⟩

/-- C57 is false for uint8: with scale 0.1f and zero point 0, code 162 is dequantized to the bf16 0x4182
(16.25), which is quantized to code 163. -/
theorem C57_false_uint8 :
    Always NoFault (dequantize ⟨.portable, 1, .none⟩ (Ex.buf [162]) 1 .uint8 64 2 .bf16 Ex.tenth 0 .set) (span 64 2) Ex.old (fun m => u16At m 64 = 0x4182) ∧
    Always NoFault (quantize ⟨.portable, 1, .none⟩ (Ex.buf [0x82, 0x41]) .bf16 64 1 .uint8 Ex.tenth 0 .nearest f0) (span 64 1) Ex.old (fun m => m 64 = 163) := by
  refine ⟨?_, ?_⟩
  · refine (dequantize_result (c := ⟨.portable, 1, .none⟩) (n := 1) (o := 64) (scale := Ex.tenth) (zp := 0) (op := .set) (m0 := Ex.old)
      (l := [0x82, 0x41]) ⟨rfl, rfl, by decide, sz 1 1⟩ (by unfold Readable; decide) (by decide +kernel)).mono (fun _ h => h) (fun m hm => ?_)
    have hm : [m 64, m 65] = [0x82, 0x41] := hm
    simp only [List.cons.injEq, and_true] at hm
    unfold u16At; rw [hm.1, hm.2]
  · exact (quantize_result (dtOut := .uint8) (n := 1) (l := [163]) ⟨rfl, rfl, rfl, sz 1 1⟩ (by decide +kernel)).mono (fun _ h => h) (fun m hm => (List.cons.inj hm).1)

/-! ## C58 -/

/-- C58. Quantize (nearest) a float32 or bf16 tensor and dequantize to bf16, on any kernels, with any scale in
`[2^-125, 2^118]` and any zero point that is a code: every element inside the representable range comes back within
half a step plus the resolution of bf16 (at most `(2^bits - 1)/256` steps). -/
theorem C58_roundtrip_bf16 (hq : QArgs c.threads x ft.dtype dt n) (h' : Sizes n c'.threads) (hf : AllFin ft x n)
    (hz : 0 ≤ z ∧ z ≤ 2 ^ dt.bits - 1) (h1 : 1 / 2 ^ 125 ≤ s.toRat) (h2 : s.toRat ≤ 2 ^ 118) (hx : InRange ft x n dt s z) :
    Always NoFault (quantize c x ft.dtype o (bytes dt.bits n) dt s z .nearest τ) (span o (bytes dt.bits n)) m0 (fun m =>
      ∀ sz, bytes dt.bits n ≤ sz →
        Always NoFault (dequantize c' ⟨sz, fun a => m (o + a)⟩ (bytes dt.bits n) dt o' (2 * n) .bf16 s z .set) (span o' (2 * n)) m0' (fun m' =>
          ∀ i, i < n → (bf16At m' (o' + 2 * i)).isFin = true ∧
            |(bf16At m' (o' + 2 * i)).toRat - (elem ft.dtype x.data 0 i).toRat| ≤ s.toRat * (1 / 2 + (2 ^ dt.bits - 1) / 2 ^ 8 + 1 / 2 ^ 12))) := by
  have hs : 0 < s.toRat := lt_of_lt_of_le (by positivity) h1
  have h1' : 1 / 2 ^ 126 ≤ s.toRat := le_trans (by norm_num) h1
  have h2' : s.toRat ≤ 2 ^ 119 := h2.trans (by norm_num)
  have hdt := hq.outQuant
  have hQ := qmax_bounds hdt
  have hcov := covered_inRange hz hs hx
  have hz22 : |z| ≤ 2 ^ 22 := by rw [abs_of_nonneg hz.1]; norm_num; omega
  have hfits : ∀ i, i < n → Fits 32 (scaled (elem ft.dtype x.data 0 i) s) z := fun i hi => by
    obtain ⟨g1, _, g2⟩ := hcov.scaled hdt hf h1' h2' hi
    exact defined_of (mode := .nearest) (τ := τ) g1 g2 ⟨hz.1, by omega⟩ (fun h => by cases h)
  refine (C07_vector_nearest (c := c) hq hz22 hfits).mono (fun _ h => h) (fun m hm sz hsz => ?_)
  have hd : DArgs c'.threads ⟨sz, fun a => m (o + a)⟩ dt .bf16 n := ⟨hdt, rfl, hsz, h'⟩
  refine (dequant_bf16_near (c := c') hd hz h1 h2).mono (fun _ h => h) (fun m' hm' i hi => ?_)
  obtain ⟨y1, y2⟩ := hm' i hi
  refine ⟨y1, ?_⟩
  rw [show (InBuf.data ⟨sz, fun a => m (o + a)⟩) = fun a => m (o + a) from rfl, code_shift] at y2
  have hcode : ∃ r : ℤ, NearInt (scaled (elem ft.dtype x.data 0 i) s).toRat r ∧ (code dt.bits m o i : ℤ) = sat dt.bits (r + z) := by
    rcases hm i hi with g | ⟨g1, g2⟩
    · exact ⟨_, Or.inl rfl, g⟩
    · exact ⟨_, Or.inr ⟨g1, rfl⟩, g2⟩
  obtain ⟨r, hr, er⟩ := hcode
  have hk := rt_core hcov.zp hcov.off hcov.len (hcov.quo i hi) (hcov.scaled hdt hf h1' h2' hi).2.1 (nearInt_err hr)
  rw [← er] at hk
  have hkQ : |(code dt.bits m o i : ℤ) - z| ≤ 2 ^ dt.bits - 1 := by
    rw [er, abs_le]; unfold sat; omega
  obtain ⟨k, ek⟩ : ∃ k : ℤ, k = (code dt.bits m o i : ℤ) - z := ⟨_, rfl⟩
  rw [← ek] at hk y2 hkQ
  have hkq : |(k:ℚ)| ≤ 2 ^ dt.bits - 1 := by exact_mod_cast hkQ
  have hQ1 : (1:ℚ) ≤ 2 ^ dt.bits - 1 := by
    have : (3:ℚ) ≤ 2 ^ dt.bits - 1 := by exact_mod_cast hQ.1
    linarith
  have hmax : max |(k:ℚ)| 1 ≤ 2 ^ dt.bits - 1 := max_le hkq hQ1
  have hxk : |(k:ℚ) * s.toRat - (elem ft.dtype x.data 0 i).toRat| ≤ (1 / 2 + 1 / 2 ^ 13 + 1 / 2 ^ 25) * s.toRat := by
    have : (k:ℚ) * s.toRat - (elem ft.dtype x.data 0 i).toRat = ((k:ℚ) - (elem ft.dtype x.data 0 i).toRat / s.toRat) * s.toRat := by field_simp
    rw [this, abs_mul, abs_of_pos hs]
    exact mul_le_mul_of_nonneg_right hk hs.le
  have hy : s.toRat * (max |(k:ℚ)| 1 / 2 ^ 8 + 1 / 2 ^ 14) ≤ s.toRat * ((2 ^ dt.bits - 1) / 2 ^ 8 + 1 / 2 ^ 14) := by
    apply mul_le_mul_of_nonneg_left _ hs.le
    have := div_le_div_of_nonneg_right hmax (show (0:ℚ) ≤ 2 ^ 8 by positivity)
    linarith
  have tri := abs_add_le ((bf16At m' (o' + 2 * i)).toRat - k * s.toRat) (k * s.toRat - (elem ft.dtype x.data 0 i).toRat)
  rw [sub_add_sub_cancel] at tri
  refine (tri.trans (add_le_add (y2.trans hy) hxk)).trans ?_
  have e : s.toRat * ((2 ^ dt.bits - 1) / 2 ^ 8 + 1 / 2 ^ 14) + (1 / 2 + 1 / 2 ^ 13 + 1 / 2 ^ 25) * s.toRat =
      s.toRat * (1 / 2 + (2 ^ dt.bits - 1) / 2 ^ 8 + (1 / 2 ^ 14 + 1 / 2 ^ 13 + 1 / 2 ^ 25)) := by ring
  rw [e]
  apply mul_le_mul_of_nonneg_left _ hs.le
  have : (1:ℚ) / 2 ^ 14 + 1 / 2 ^ 13 + 1 / 2 ^ 25 ≤ 1 / 2 ^ 12 := by norm_num
  linarith

/-- `C58_roundtrip_bf16` applied to a concrete case. -/
example := C58_roundtrip_bf16 (ft := .bf16) (x := Ex.manyB) (n := 70) (dt := .uint8) (c := Ex.c1) (c' := Ex.c2) (o := 1000) (o' := 3000) (m0 := Ex.old)
    (m0' := Ex.old) (s := Ex.tenth) (τ := Ex.quarter) (z := 64) (hq := by wit) (h' := by wit) (hf := by wit) (hz := by wit) (h1 := by wit)
    (h2 := by wit) (hx := by wit)

/-- 1, -2.5, 3 in bf16 with scale 0.5 and zero point 10: inside `[-5, 122.5]`. -/
example : QArgs 3 Ex.xb .bf16 .uint8 3 ∧ AllFin .bf16 Ex.xb 3 ∧ 1 / 2 ^ 125 ≤ Ex.half.toRat ∧ Ex.half.toRat ≤ 2 ^ 118 ∧ InRange .bf16 Ex.xb 3 .uint8 Ex.half 10 := by
  refine ⟨⟨rfl, rfl, rfl, by omega, by norm_num, by norm_num⟩, ?_, by decide +kernel, by decide +kernel, ?_⟩
  · unfold AllFin; decide +kernel
  · unfold InRange
    show ∀ i, i < 3 → ((0 - 10 : ℤ) : ℚ) * Ex.half.toRat ≤ (elem .bf16 Ex.xb.data 0 i).toRat ∧ (elem .bf16 Ex.xb.data 0 i).toRat ≤ ((2 ^ 8 - 1 - 10 : ℤ) : ℚ) * Ex.half.toRat
    decide +kernel

end Verif.Props
