import Verif.Props.Examples
import Verif.Proofs.Readme
import Verif.Props.Offset
import Verif.Props.Py

/-!
# The example of the README: C64
-/

namespace Verif.Props
open Spec

variable {isa : Isa} {ft : FT} {x : InBuf} {n : Nat} {blocks : List (Nat × Nat)} {dt : DType} {c c' : Ctx} {o o' : Nat} {m0 m0' : Mem} {s τ : F32} {z : ℤ}

/-- A computed scale for data in the unit interval is at most 1. -/
theorem params_unit {lo hi : ℚ} (hdt : dt.isQuant = true) (hlo : 0 ≤ lo) (hhi : hi ≤ 1) (he : params dt.bits lo hi = (s, z)) : s.toRat ≤ 1 := by
  have hQ := qmax_bounds hdt
  have q1 : (3:ℚ) ≤ 2 ^ dt.bits - 1 := by exact_mod_cast hQ.1
  unfold params at he
  by_cases hc : hi = lo
  · rw [if_pos hc] at he
    rw [← (Prod.mk.inj he).1, show (⟨false, 0x3f800000⟩ : F32).toRat = 1 by decide +kernel]
  · rw [if_neg hc] at he
    rw [← (Prod.mk.inj he).1, ofRat_flr]
    have r1 : ∀ f : Fmt, [f.Good] → Rep f |(1:ℚ)| := fun f _ => by
      rw [abs_one]
      have := rep_nat' (f := f) (m := 1) Nat.one_le_two_pow
      simpa using this
    have e32 : |(1:ℚ)| ≤ 2 ^ f32.emax := by rw [abs_one]; exact one_le_pow₀ (by norm_num)
    have e64 : |(1:ℚ)| ≤ 2 ^ f64.emax := by rw [abs_one]; exact one_le_pow₀ (by norm_num)
    apply flr_le _ (r1 f32) e32
    unfold scale64
    rw [r64_flr, r64_flr]
    apply flr_le _ (r1 f64) e64
    rw [div_le_one (by linarith)]
    have : flr f64 (hi - lo) ≤ 1 := flr_le (by linarith) (r1 f64) e64
    linarith

/-- Quantize (nearest) data of the unit interval with its own parameters and dequantize to bf16. -/
theorem roundtrip_unit (h : PArgs ft x n blocks dt) (hn : 0 < n) (hf : AllFin ft x n) (hs : Sees isa ft x n blocks) {lo hi : ℚ}
    (hr : Range ft.dtype x.data n lo hi) (hlo : 0 ≤ lo) (hhi : hi ≤ 1) (he : computeQuantConfigFromData isa ft x blocks dt = .ret (s, z))
    (h1 : 1 / 2 ^ 125 ≤ s.toRat) (hgap : lo ≤ s.toRat / 2)
    (hq : QArgs c.threads x ft.dtype dt n) (h' : Sizes n c'.threads) :
    Always NoFault (quantize c x ft.dtype o (bytes dt.bits n) dt s z .nearest τ) (span o (bytes dt.bits n)) m0 (fun m =>
      ∀ sz, bytes dt.bits n ≤ sz →
        Always NoFault (dequantize c' ⟨sz, fun a => m (o + a)⟩ (bytes dt.bits n) dt o' (2 * n) .bf16 s z .set) (span o' (2 * n)) m0' (fun m' =>
          ∀ i, i < n → (bf16At m' (o' + 2 * i)).isFin = true ∧
            |(bf16At m' (o' + 2 * i)).toRat - (elem ft.dtype x.data 0 i).toRat| ≤ s.toRat / 2 + s.toRat / 2 ^ 9 + 1 / 2 ^ 9)) := by
  have hspos : 0 < s.toRat := lt_of_lt_of_le (by positivity) h1
  have h1' : 1 / 2 ^ 126 ≤ s.toRat := le_trans (by norm_num) h1
  have hQ := qmax_bounds h.quant
  have hzr : 0 ≤ z ∧ z ≤ 2 ^ dt.bits - 1 := by
    have := C20_zero_point_in_range h.quant he
    exact ⟨this.1, this.2.1⟩
  have hnear := fun i (hi' : i < n) => computed_code_near h hn hf hs hr he h1'
  have he' := he
  rw [C22_true_range_partial h hn hf hs hr] at he'
  injection he' with he'
  obtain ⟨⟨⟨a, ha, ea⟩, hlo'⟩, ⟨b, hb, eb⟩, hhi'⟩ := hr
  have hle : lo ≤ hi := by rw [ea]; exact hhi' ⟨a, ha, rfl⟩
  have hs1 := params_unit h.quant hlo hhi he'
  have hsf : s.isFin = true := isFin_of_abs (by
    rw [abs_of_pos hspos, emax_f32]; exact lt_of_le_of_lt hs1 (by norm_num))
  have h2 : s.toRat ≤ 2 ^ 126 := hs1.trans (by norm_num)
  have hg : max (1 / 2) (gap lo hi / s.toRat) = 1 / 2 := by
    apply max_eq_left
    rw [div_le_iff₀ hspos]
    unfold gap
    refine max_le (by linarith) (max_le (by linarith) (by linarith))
  have hx : ∀ i, i < n → lo ≤ (elem ft.dtype x.data 0 i).toRat ∧ (elem ft.dtype x.data 0 i).toRat ≤ hi := fun i hi =>
    ⟨hlo' ⟨i, hi, rfl⟩, hhi' ⟨i, hi, rfl⟩⟩
  have hcase : (hi = lo ∧ s.toRat = 1) ∨ (z = 0 ∧ (hi - lo) / s.toRat ≤ 256 ∧ ((2:ℚ) ^ dt.bits - 1) * s.toRat ≤ 1 + 1 / 2 ^ 14) := by
    by_cases hc : hi = lo
    · refine Or.inl ⟨hc, ?_⟩
      unfold params at he'
      rw [if_pos hc] at he'
      rw [← (Prod.mk.inj he').1, show (⟨false, 0x3f800000⟩ : F32).toRat = 1 by decide +kernel]
    · have hlt : lo < hi := lt_of_le_of_ne hle (Ne.symm hc)
      have hd1 : 1 / 2 ^ 149 ≤ hi - lo := by
        have hlt := hlt
        rw [ea, eb] at hlt ⊢
        have := toRat_sub_unit hlt
        rwa [unit_f32] at this
      have hstep := abs_le.mp (params_step hQ hd1 (by
        calc hi - lo ≤ 1 := by linarith
          _ ≤ _ := by norm_num) he' h1' h2)
      have hQ2 : (2:ℚ) ^ dt.bits - 1 ≤ 255 := by exact_mod_cast hQ.2
      have e14 : (1:ℚ) / 2 ^ 14 ≤ 1 := by norm_num
      refine Or.inr ⟨params_above hlo hlt he', by linarith [hstep.2], ?_⟩
      have h3 : (2:ℚ) ^ dt.bits - 1 ≤ (hi - lo) / s.toRat + 1 / 2 ^ 14 := by linarith [hstep.1]
      have h4 := mul_le_mul_of_nonneg_right h3 hspos.le
      rw [add_mul, div_mul_cancel₀ _ hspos.ne'] at h4
      have h5 : 1 / 2 ^ 14 * s.toRat ≤ 1 / 2 ^ 14 := by
        apply mul_le_of_le_one_right (by positivity) hs1
      linarith
  have hu0 : ∀ i, i < n → 0 ≤ (elem ft.dtype x.data 0 i).toRat / s.toRat := fun i hi' => div_nonneg (hlo.trans (hx i hi').1) hspos.le
  have hu : ∀ i, i < n → |(elem ft.dtype x.data 0 i).toRat / s.toRat| ≤ 257 := fun i hi' => by
    rw [abs_of_nonneg (hu0 i hi')]
    have e1 : (elem ft.dtype x.data 0 i).toRat / s.toRat ≤ hi / s.toRat := div_le_div_of_nonneg_right (hx i hi').2 hspos.le
    rcases hcase with ⟨g1, g2⟩ | ⟨_, g2, _⟩
    · rw [g2] at e1 ⊢; linarith
    · have e2 : hi / s.toRat = (hi - lo) / s.toRat + lo / s.toRat := by ring
      have e3 : lo / s.toRat ≤ 1 / 2 := by rw [div_le_iff₀ hspos]; linarith
      linarith
  have hsc : ∀ i, i < n → (scaled (elem ft.dtype x.data 0 i) s).isFin = true ∧ |(scaled (elem ft.dtype x.data 0 i) s).toRat| ≤ 2 ^ 30 := fun i hi' =>
    by
      obtain ⟨k1, k2⟩ := scaled_rel (hf i hi') hsf h1' h2 ((hu i hi').trans (by norm_num))
      refine ⟨k1, ?_⟩
      have g := hu i hi'
      have k3 : |(elem ft.dtype x.data 0 i).toRat / s.toRat| / 2 ^ 22 ≤ 257 / 2 ^ 22 := div_le_div_of_nonneg_right g (by positivity)
      have e : (1:ℚ) / 2 ^ 150 ≤ 1 := by norm_num
      rw [abs_le] at k2 g ⊢
      constructor <;> norm_num at k2 k3 e g ⊢ <;> linarith
  have hz22 : |z| ≤ 2 ^ 22 := by rw [abs_of_nonneg hzr.1]; norm_num; omega
  have hfits : ∀ i, i < n → Fits 32 (scaled (elem ft.dtype x.data 0 i) s) z := fun i hi => fits_of_abs (hsc i hi).1 (hsc i hi).2 ⟨hzr.1, by omega⟩
  refine (C07_vector_nearest (c := c) hq hz22 hfits).mono (fun _ h => h) (fun m hm sz hsz => ?_)
  have hd : DArgs c'.threads ⟨sz, fun a => m (o + a)⟩ dt .bf16 n := ⟨h.quant, rfl, hsz, h'⟩
  refine (dequant_bf16_word (c := c') hd hzr h1 (hs1.trans (by norm_num))).mono (fun _ h => h) (fun m' hm' i hi => ?_)
  obtain ⟨v, v1, v2, hw⟩ := hm' i hi
  rw [show (InBuf.data ⟨sz, fun a => m (o + a)⟩) = fun a => m (o + a) from rfl, code_shift] at v2
  have hcode : ∃ r : ℤ, NearInt (scaled (elem ft.dtype x.data 0 i) s).toRat r ∧ (code dt.bits m o i : ℤ) = sat dt.bits (r + z) := by
    rcases hm i hi with g | ⟨g1, g2⟩
    · exact ⟨_, Or.inl rfl, g⟩
    · exact ⟨_, Or.inr ⟨g1, rfl⟩, g2⟩
  obtain ⟨r, hr, er⟩ := hcode
  obtain ⟨k', k1, k2⟩ := hnear i hi (hs1.trans (by norm_num)) hi
  rw [hg] at k2
  have hcl := sat_closest (k := k') (ε := 1 / 2 ^ 11) hzr hQ.2 ⟨by omega, k1⟩ (nearInt_err hr) (scaled_rel (hf i hi) hsf h1' h2 ((hu i hi).trans (by norm_num))).2 le_rfl
  have hkQ : 0 ≤ sat dt.bits (r + z) ∧ sat dt.bits (r + z) ≤ 2 ^ dt.bits - 1 := by unfold sat; omega
  rw [← er] at hcl hkQ
  obtain ⟨k, ek⟩ : ∃ k : ℤ, k = (code dt.bits m o i : ℤ) - z := ⟨_, rfl⟩
  rw [← ek] at hcl v2
  have hku : |(k:ℚ) - (elem ft.dtype x.data 0 i).toRat / s.toRat| ≤ 1 / 2 + 1 / 2 ^ 12 + 1 / 2 ^ 11 := by linarith
  have hks : |(k:ℚ) * s.toRat| ≤ 1 + 1 / 2 ^ 10 := by
    rcases hcase with ⟨g1, g2⟩ | ⟨g1, _, g3⟩
    · rw [g2, div_one] at hku
      have a1 := (hx i hi).1
      have a2 := (hx i hi).2
      rw [g2] at hgap
      have a3 : (k:ℚ) < 2 := by rw [abs_le] at hku; norm_num at hku; linarith [hku.2]
      have a4 : (-1:ℚ) < k := by rw [abs_le] at hku; norm_num at hku; linarith [hku.1]
      have a3 : k < 2 := by exact_mod_cast a3
      have a4 : -1 < k := by exact_mod_cast a4
      have a5 : |(k:ℚ)| ≤ 1 := by exact_mod_cast (by rw [abs_le]; omega : |k| ≤ 1)
      rw [g2, mul_one]
      refine a5.trans (by norm_num)
    · rw [g1] at ek
      have a1 : (0:ℚ) ≤ k := by exact_mod_cast (by omega : 0 ≤ k)
      have a2 : (k:ℚ) ≤ 2 ^ dt.bits - 1 := by exact_mod_cast (by omega : k ≤ 2 ^ dt.bits - 1)
      rw [abs_of_nonneg (mul_nonneg a1 hspos.le)]
      have := mul_le_mul_of_nonneg_right a2 hspos.le
      have e : (1:ℚ) / 2 ^ 14 ≤ 1 / 2 ^ 10 := by norm_num
      linarith
  obtain ⟨y1, y2⟩ := word_unit h1 hs1 hks v1 v2 (u16At_lt _ _) hw
  refine ⟨y1, ?_⟩
  have hxk : |(k:ℚ) * s.toRat - (elem ft.dtype x.data 0 i).toRat| ≤ (1 / 2 + 1 / 2 ^ 12 + 1 / 2 ^ 11) * s.toRat := by
    have : (k:ℚ) * s.toRat - (elem ft.dtype x.data 0 i).toRat = ((k:ℚ) - (elem ft.dtype x.data 0 i).toRat / s.toRat) * s.toRat := by field_simp
    rw [this, abs_mul, abs_of_pos hspos]
    exact mul_le_mul_of_nonneg_right hku hspos.le
  have tri := abs_add_le ((bf16At m' (o' + 2 * i)).toRat - k * s.toRat) (k * s.toRat - (elem ft.dtype x.data 0 i).toRat)
  rw [sub_add_sub_cancel] at tri
  refine (tri.trans (add_le_add y2 hxk)).trans ?_
  have e : s.toRat / 2 ^ 15 + (1 / 2 + 1 / 2 ^ 12 + 1 / 2 ^ 11) * s.toRat ≤ s.toRat / 2 + s.toRat / 2 ^ 9 := by
    have : s.toRat / 2 ^ 15 + (1 / 2 + 1 / 2 ^ 12 + 1 / 2 ^ 11) * s.toRat = s.toRat * (1 / 2 ^ 15 + 1 / 2 + 1 / 2 ^ 12 + 1 / 2 ^ 11) := by ring
    rw [this, show s.toRat / 2 + s.toRat / 2 ^ 9 = s.toRat * (1 / 2 + 1 / 2 ^ 9) by ring]
    exact mul_le_mul_of_nonneg_left (by norm_num) hspos.le
  linarith

variable {t : Py.Tensor} {dtype : Py.TDtype} {alloc alloc' : Nat} {pblocks : Nat → List (Nat × Nat)} {sc : F64}

/-- The native parameter computation behind a successful `compute_quant_params` with a finite scale. -/
theorem py_params (ht : t.Ok) (h0 : 0 < t.numel) (hn : t.numel < 2 ^ 64) (hqt : dtype ∈ Py.quantTypes) {q : DType} (hq : torchDtype? dtype = some q)
    (he : Py.computeQuantParams c t dtype pblocks = .ok (.ret (sc, z))) :
    ∃ s32 : F32, computeQuantConfigFromData c.isa (floatType t.dtype) t.store (pblocks t.numel) q = .ret (s32, z) ∧ sc = Flt.cvt f64 s32 := by
  have hp : t.ptr ≠ 0 := fun h => by have := ht.ptr.1 h; omega
  rw [computeQuantParams_quant hqt hp hn hq] at he
  have he : (computeQuantConfigFromData c.isa (floatType t.dtype) t.store (pblocks t.numel) q >>= fun r => pure (Flt.cvt f64 r.1, r.2)) = Prog.ret (sc, z) := by
    injection he
  cases hcc : computeQuantConfigFromData c.isa (floatType t.dtype) t.store (pblocks t.numel) q with
  | ret r =>
    rw [hcc] at he
    have he : (Prog.ret (Flt.cvt f64 r.1, r.2) : Prog (F64 × ℤ)) = .ret (sc, z) := he
    injection he with he
    injection he with g1 g2
    exact ⟨r.1, by rw [← g2], g1.symm⟩
  | fail f => rw [hcc] at he; cases he
  | rd a k => rw [hcc] at he; cases he
  | wr a b k => rw [hcc] at he; cases he

/-- C64, what holds: the workflow of the README example (`compute_quant_params`, `quantize`, `dequantize` to bfloat16) on a
float32 or bfloat16 tensor with values in `[0, 1]` whose minimum is at most half a step: no exception, no fault, and
every element comes back within `scale/2 + scale/512 + 1/512`.  Missing: the tolerance `scale/2 + 1e-3` the README asserts
(`C64_false_readme_assertion`), minima above half a step (`C63_offset_is_lost`), SSE4.2 searches that miss an extreme (C22). -/
theorem C64_readme_workflow_partial (ht : t.Ok) (h0 : 0 < t.numel) (hft : t.dtype = .float32 ∨ t.dtype = .bfloat16)
    (hf : AllFin (floatType t.dtype) t.store t.numel) (hqt : dtype ∈ Py.quantTypes) (hb : Split t.numel 0 (pblocks t.numel))
    (hs : Sizes t.numel c.threads) (hs' : Sizes t.numel c'.threads) (hsse : Sees c.isa (floatType t.dtype) t.store t.numel (pblocks t.numel))
    {lo hi : ℚ} (hr : Range (floatType t.dtype).dtype t.store.data t.numel lo hi) (hlo : 0 ≤ lo) (hhi : hi ≤ 1) (ha : alloc ≠ 0) (ha' : alloc' ≠ 0)
    (he : Py.computeQuantParams c t dtype pblocks = .ok (.ret (sc, z))) (h1 : 1 / 2 ^ 125 ≤ sc.toRat) (hgap : lo ≤ sc.toRat / 2) :
    ∃ call, Py.quantize c t alloc sc z dtype "nearest" τ = .ok call ∧
      Always NoFault call (span alloc ((dtype.bits * t.numel + 7) / 8)) m0 (fun m =>
        ∃ call', Py.dequantize c' (returned dtype t.numel alloc m) alloc' sc z .bfloat16 "set" = .ok call' ∧
          Always NoFault call' (span alloc' (2 * t.numel)) m0' (fun m' => ∀ i, i < t.numel →
            |(bf16At m' (alloc' + 2 * i)).toRat - (elem (floatType t.dtype).dtype t.store.data 0 i).toRat| ≤ sc.toRat / 2 + sc.toRat / 2 ^ 9 + 1 / 2 ^ 9)) := by
  obtain ⟨q, hq, hqq⟩ := quantTypes_iff.1 hqt
  have hn : t.numel < 2 ^ 64 := by have := hs.addr; omega
  obtain ⟨d, hd, hdf, hdd, hdsz⟩ : ∃ d, torchDtype? t.dtype = some d ∧ d.isQuant = false ∧ (floatType t.dtype).dtype = d ∧ (floatType t.dtype).size = d.stride := by
    rcases hft with h | h
    · exact ⟨.f32, by rw [h]; rfl, rfl, by rw [h]; rfl, by rw [h]; rfl⟩
    · exact ⟨.bf16, by rw [h]; rfl, rfl, by rw [h]; rfl, by rw [h]; rfl⟩
  have hsz : t.store.size = d.stride * t.numel := by rw [ht.size, torchDtype_bits hd, stride_size hdf]
  obtain ⟨s32, hc, hse⟩ := py_params ht h0 hn hqt hq he
  obtain ⟨hz0, hz1, hnan, -⟩ := C20_zero_point_in_range hqq hc
  have hback : Flt.cvt f32 sc = s32 := by rw [hse]; exact toFloat_cvt hnan
  have hzr : -(2 ^ 63 : ℤ) ≤ z ∧ z < 2 ^ 63 := by
    have : (2:ℤ) ^ q.bits ≤ 2 ^ 8 := by cases q <;> simp only [DType.isQuant, Bool.false_eq_true] at hqq <;> norm_num [DType.bits]
    constructor <;> linarith
  have hP : PArgs (floatType t.dtype) t.store t.numel (pblocks t.numel) q := ⟨hqq, by rw [hsz, hdsz], hb⟩
  have hs1 : s32.toRat ≤ 1 := by
    have := hc
    rw [C22_true_range_partial hP h0 hf hsse hr] at this
    injection this with this
    exact params_unit hqq hlo hhi this
  have hfin : s32.isFin = true := by
    rcases fin_or_inf hnan with h | h
    · exact h
    · exfalso
      have g := C20_zero_point_in_range hqq hc
      rw [toRat_lt_of_inf h] at hs1 g
      rw [emax_f32] at hs1 g
      cases hneg : s32.neg
      · rw [hneg, if_neg Bool.false_ne_true] at hs1
        norm_num at hs1
      · rw [hneg, if_pos rfl] at g
        have g3 := g.2.2.2
        norm_num at g3
  have hrat : sc.toRat = s32.toRat := by rw [hse]; exact (cvt64_fin hfin).1
  rw [hrat] at h1 hgap ⊢
  have hbits : dtype.bits = q.bits := torchDtype_bits hq
  obtain ⟨e, -⟩ := C47_quantize_is_native_call (c := c) (t := t) (alloc := alloc) (scale := sc) (zp := z) (dtype := dtype) (mode := "nearest") (τ := τ) ht h0
    (by rw [hsz]; have := hs.addr; rcases stride_cases hdf with ⟨_, h⟩ | ⟨_, h⟩ <;> rw [h] <;> omega) ha hzr hd hdf hq hqq rfl
  rw [hback] at e
  refine ⟨_, e, ?_⟩
  rw [hbits]
  have := roundtrip_unit (c := c) (c' := c') (o := alloc) (o' := alloc') (m0 := m0) (m0' := m0') (τ := τ) hP h0 hf hsse hr hlo hhi hc h1 hgap
    (by rw [hdd]; exact ⟨hdf, hqq, hsz, hs⟩) hs'
  rw [hdd] at this ⊢
  refine this.mono (fun _ h => h) fun m hm => ?_
  have hok : (returned dtype t.numel alloc m).Ok := ⟨rfl, ⟨fun h => absurd h ha, fun h => absurd h (by show ¬ t.numel = 0; omega)⟩⟩
  obtain ⟨e', hsz', -⟩ := C47_dequantize_is_native_call (c := c') (t := returned dtype t.numel alloc m) (alloc := alloc') (scale := sc) (zp := z) (dtype := .bfloat16) (op := "set") (r := .set)
    hok h0 ha' hzr (d := .bf16) (q := q) rfl rfl hq hqq (by show 2 * t.numel < _; have := hs.addr; omega) rfl
  rw [hback] at e'
  refine ⟨_, e', ?_⟩
  have hstore : (returned dtype t.numel alloc m).store = ⟨bytes q.bits t.numel, fun a => m (alloc + a)⟩ := by
    unfold returned; rw [hbits]; rfl
  rw [hstore]
  exact (hm (bytes q.bits t.numel) le_rfl).mono (fun _ h => h) fun m' hm' i hi => (hm' i hi).2

/-- The bfloat16 tensor 0, 151/256, 197/256. -/
def rand3 : Py.Tensor := ⟨.bfloat16, 3, 64, Ex.buf (Ex.words16 [0, 0x3f17, 0x3f45])⟩

/-- The scale the library computes for it (uint4): about 0.0513. -/
def rand3s : F32 := ⟨false, 0x3d522222⟩

theorem rand3_params : Py.computeQuantParams c rand3 .quint4x2 (fun _ => [(0, 3)]) = .ok (.ret (Flt.cvt f64 rand3s, 0)) := by
  have hv : ∀ t, t < 3 → 0 ≤ (elem .bf16 rand3.store.data 0 t).toRat ∧ (elem .bf16 rand3.store.data 0 t).toRat ≤ 197 / 256 := by decide +kernel
  have hP : PArgs .bf16 rand3.store 3 [(0, 3)] .uint4 := ⟨rfl, by decide, rfl, by omega, rfl⟩
  have hR : Range FT.bf16.dtype rand3.store.data 3 0 (197 / 256) := by
    refine ⟨⟨⟨0, by omega, by decide +kernel⟩, ?_⟩, ⟨2, by omega, by decide +kernel⟩, ?_⟩
    · rintro v ⟨t, ht, rfl⟩; exact (hv t ht).1
    · rintro v ⟨t, ht, rfl⟩; exact (hv t ht).2
  have hF : AllFin .bf16 rand3.store 3 := by unfold AllFin; decide +kernel
  have hsse : Sees c.isa .bf16 rand3.store 3 [(0, 3)] := sees_small hP (by omega) (by intro _ b hb; simp only [List.mem_singleton] at hb; subst hb; decide)
  rw [computeQuantParams_quant (by decide) (by decide) (by decide) (q := .uint4) rfl, if_pos (show rand3.dtype = .bfloat16 from rfl)]
  have := C22_true_range_partial (isa := c.isa) hP (by decide) hF hsse hR
  rw [show params DType.uint4.bits 0 (197 / 256) = (rand3s, 0) by decide +kernel] at this
  show Except.ok (computeQuantConfigFromData c.isa .bf16 rand3.store [(0, 3)] .uint4 >>= _) = _
  rw [this]; rfl

/-- C64 is false: on every kernel set, thread count and schedule, the README workflow on the tensor `0, 151/256, 197/256`
of values in `[0, 1)` returns for the second element a value further away than the tolerance
`atol + rtol * |x| = scale/2 + 1e-3 + 1e-5 * |x|` that `torch.allclose` allows. -/
theorem C64_false_readme_assertion (hc : Sizes 3 c.threads) (hc' : Sizes 3 c'.threads) (ha : alloc ≠ 0) (ha' : alloc' ≠ 0) :
    ∃ call, Py.quantize c rand3 alloc (Flt.cvt f64 rand3s) 0 .quint4x2 "nearest" τ = .ok call ∧
      Always NoFault call (span alloc 2) m0 (fun m =>
        ∃ call', Py.dequantize c' (returned .quint4x2 3 alloc m) alloc' (Flt.cvt f64 rand3s) 0 .bfloat16 "set" = .ok call' ∧
          Always NoFault call' (span alloc' 6) m0' (fun m' =>
            (Flt.cvt f64 rand3s).toRat / 2 + 1 / 1000 + 1 / 100000 * |(elem .bf16 rand3.store.data 0 1).toRat| <
              |(bf16At m' (alloc' + 2)).toRat - (elem .bf16 rand3.store.data 0 1).toRat|)) := by
  have hok : rand3.Ok := ⟨by decide, by decide⟩
  have hz : -(2 ^ 63 : ℤ) ≤ 0 ∧ (0:ℤ) < 2 ^ 63 := by norm_num
  have hback : Flt.cvt f32 (Flt.cvt f64 rand3s) = rand3s := toFloat_cvt (by decide)
  obtain ⟨e, -⟩ := C47_quantize_is_native_call (c := c) (t := rand3) (alloc := alloc) (scale := Flt.cvt f64 rand3s) (zp := 0) (dtype := .quint4x2) (mode := "nearest") (τ := τ) hok (by decide)
    (by decide) ha hz (d := .bf16) (q := .uint4) rfl rfl rfl rfl rfl
  rw [hback] at e
  refine ⟨_, e, ?_⟩
  have hq : QArgs c.threads rand3.store .bf16 .uint4 3 := ⟨rfl, rfl, rfl, hc⟩
  have hfits : ∀ i, i < 3 → Fits 32 (scaled (elem .bf16 rand3.store.data 0 i) rand3s) 0 := by decide +kernel
  refine (C07_vector_nearest (c := c) (o := alloc) (m0 := m0) (τ := τ) hq (by norm_num) hfits).mono (fun _ h => h) (fun m hm => ?_)
  have hcode : code 4 m alloc 1 = 11 := by
    have g1 : sat 4 (rha (scaled (elem .bf16 rand3.store.data 0 1) rand3s).toRat + 0) = 11 := by decide +kernel
    have g2 : ¬ |(scaled (elem .bf16 rand3.store.data 0 1) rand3s).toRat| = predHalf := by decide +kernel
    rcases hm 1 (by norm_num) with g | ⟨g, _⟩
    · have : (code 4 m alloc 1 : ℤ) = 11 := g.trans g1
      exact_mod_cast this
    · exact absurd g g2
  have hok' : (returned .quint4x2 3 alloc m).Ok := ⟨rfl, ⟨fun h => absurd h ha, fun h => absurd h (by show ¬ 3 = 0; omega)⟩⟩
  obtain ⟨e', -, -⟩ := C47_dequantize_is_native_call (c := c') (t := returned .quint4x2 3 alloc m) (alloc := alloc') (scale := Flt.cvt f64 rand3s) (zp := 0) (dtype := .bfloat16) (op := "set") (r := .set)
    hok' (by show 0 < 3; omega) ha' hz (d := .bf16) (q := .uint4) rfl rfl rfl rfl (by show 2 * 3 < _; norm_num) rfl
  rw [hback] at e'
  refine ⟨_, e', ?_⟩
  have hd : DArgs c'.threads (⟨2, fun a => m (alloc + a)⟩ : InBuf) .uint4 .bf16 3 := ⟨rfl, rfl, (show bytes DType.uint4.bits 3 ≤ 2 by decide), hc'⟩
  have h1 : 1 / 2 ^ 125 ≤ rand3s.toRat := by decide +kernel
  have h2 : rand3s.toRat ≤ 2 ^ 118 := by decide +kernel
  have hz' : (0:ℤ) ≤ 0 ∧ (0:ℤ) ≤ 2 ^ DType.uint4.bits - 1 := by decide
  refine (dequant_bf16_word (c := c') (o := alloc') (m0 := m0') hd hz' h1 h2).mono (fun _ h => h) (fun m' hm' => ?_)
  obtain ⟨v, v1, v2, hw⟩ := hm' 1 (by norm_num)
  have hcs : code DType.uint4.bits (fun a => m (alloc + a)) 0 1 = 11 := (code_shift _ _ _ _).trans hcode
  rw [show (InBuf.data ⟨2, fun a => m (alloc + a)⟩) = fun a => m (alloc + a) from rfl, hcs] at v2
  have b1 : (9:ℚ) / 16 ≤ (((11:ℕ):ℤ) - 0 : ℤ) * rand3s.toRat - rand3s.toRat / 2 ^ 15 := by decide +kernel
  have b2 : (((11:ℕ):ℤ) - 0 : ℤ) * rand3s.toRat + rand3s.toRat / 2 ^ 15 ≤ (289:ℚ) / 512 - 1 / 2 ^ 15 := by decide +kernel
  rw [abs_le] at v2
  have w1 : (9:ℚ) / 16 ≤ v.toRat := by linarith [v2.1]
  have w2 : v.toRat ≤ (289:ℚ) / 512 - 1 / 2 ^ 15 := by linarith [v2.2]
  have hval : (bf16At m' (alloc' + 2)).toRat = 9 / 16 := by
    rcases hw with hw | ⟨hw, _⟩
    · obtain ⟨_, g⟩ := isBf16_value v1 (by rw [abs_of_nonneg (by linarith)]; refine w2.trans (by norm_num)) hw
      have g : (bf16At m' (alloc' + 2)).toRat = flr bf16 v.toRat := g
      rw [g]
      have m1 := flr_mono (f := bf16) w1
      have m2 := flr_mono (f := bf16) w2
      have f1 : flr bf16 (9 / 16) = 9 / 16 := by rw [← ofRat_flr (f := bf16) (9 / 16) false]; decide +kernel
      have f2 : flr bf16 ((289:ℚ) / 512 - 1 / 2 ^ 15) = 9 / 16 := by rw [← ofRat_flr (f := bf16) ((289:ℚ) / 512 - 1 / 2 ^ 15) false]; decide +kernel
      rw [f1] at m1; rw [f2] at m2
      exact le_antisymm m2 m1
    · rw [abs_of_nonneg (by linarith)] at hw
      have : (1:ℚ) / 2 ^ 126 ≤ 9 / 16 := by norm_num
      linarith
  rw [hval, show (elem .bf16 rand3.store.data 0 1).toRat = 151 / 256 by decide +kernel, show (Flt.cvt f64 rand3s).toRat = rand3s.toRat from (cvt64_fin (by decide)).1,
    abs_of_nonneg (by norm_num), abs_of_neg (by norm_num)]
  have : rand3s.toRat ≤ 525334 / 10240000 := by decide +kernel
  linarith

/-- `C64_false_readme_assertion` applied to a concrete case. -/
example := C64_false_readme_assertion (c := Ex.c1) (c' := Ex.c2) (m0 := Ex.old) (m0' := Ex.old) (τ := Ex.quarter) (alloc := 128) (alloc' := 256)
    (hc := by wit) (hc' := by wit) (ha := by wit) (ha' := by wit)

/-- The same tensor meets the hypotheses of the partial theorem. -/
theorem rand3_ok : rand3.Ok ∧ AllFin (floatType rand3.dtype) rand3.store rand3.numel ∧ Range (floatType rand3.dtype).dtype rand3.store.data rand3.numel 0 (197 / 256) ∧
    Py.computeQuantParams ⟨.avx512f, 3, .none⟩ rand3 .quint4x2 (fun _ => [(0, 3)]) = .ok (.ret (Flt.cvt f64 rand3s, 0)) ∧
    1 / 2 ^ 125 ≤ (Flt.cvt f64 rand3s).toRat ∧ 0 ≤ (Flt.cvt f64 rand3s).toRat / 2 := by
  have hv : ∀ t, t < 3 → 0 ≤ (elem .bf16 rand3.store.data 0 t).toRat ∧ (elem .bf16 rand3.store.data 0 t).toRat ≤ 197 / 256 := by decide +kernel
  refine ⟨⟨by decide, by decide⟩, ?_, ⟨⟨⟨0, by decide, by decide +kernel⟩, ?_⟩, ⟨2, by decide, by decide +kernel⟩, ?_⟩, rand3_params, by decide +kernel, by decide +kernel⟩
  · unfold AllFin; decide +kernel
  · rintro v ⟨t, ht, rfl⟩; exact (hv t ht).1
  · rintro v ⟨t, ht, rfl⟩; exact (hv t ht).2

end Verif.Props
