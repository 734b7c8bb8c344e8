import Verif.Props.Examples
import Verif.Props.Suite
import Verif.Props.Readme

/-!
# The project's Python tests (python/tests/test_torch.py) and PyTorch's rounding: C85
-/

namespace Verif.Props
open Spec

variable {ft : FT} {x : InBuf} {n : Nat} {dt : DType} {c c' : Ctx} {o : Nat} {m0 m0' : Mem} {s τ : F32} {z : ℤ} {lo hi : ℚ}
  {t : Py.Tensor} {dtype : Py.TDtype} {alloc alloc' : Nat} {pblocks : Nat → List (Nat × Nat)}

/-- Python and native sides of the parameter computation on data around zero. -/
theorem py_computed (ht : t.Ok) (hft : t.dtype = .float32 ∨ t.dtype = .bfloat16) (hd : TestData (floatType t.dtype) t.store t.numel lo hi) (hqt : dtype ∈ Py.quantTypes)
    (hb : Split t.numel 0 (pblocks t.numel)) (hn : t.numel < 2 ^ 64) (hsse : Sees c.isa (floatType t.dtype) t.store t.numel (pblocks t.numel)) :
    ∃ sc z q, torchDtype? dtype = some q ∧ q.isQuant = true ∧ Py.computeQuantParams c t dtype pblocks = .ok (.ret (sc, z)) ∧ sc.isFin = true ∧
      1 / 2 ^ 126 ≤ sc.toRat ∧ sc.toRat ≤ step q lo hi * (1 + 1 / 2 ^ 23) ∧ 0 < step q lo hi := by
  obtain ⟨q, hq, hqq⟩ := quantTypes_iff.1 hqt
  have h0 := hd.around.hn
  have hp : t.ptr ≠ 0 := fun h => by have := ht.ptr.1 h; omega
  have hsz : (floatType t.dtype).size * t.numel ≤ t.store.size := by
    rw [ht.size]
    rcases hft with h | h
    · rw [h]; show 4 * t.numel ≤ (32 * t.numel + 7) / 8; omega
    · rw [h]; show 2 * t.numel ≤ (16 * t.numel + 7) / 8; omega
  have hP : PArgs (floatType t.dtype) t.store t.numel (pblocks t.numel) q := ⟨hqq, hsz, hb⟩
  obtain ⟨s, z, he, hf, h1, h2, h3, _⟩ := computed_step (isa := c.isa) hP hsse hd.around
  obtain ⟨k1, k2⟩ := cvt64_fin hf
  refine ⟨Flt.cvt f64 s, z, q, hq, hqq, ?_, k2, by rw [k1]; exact h1, ?_, (step_bounds hqq hd.around).2.2⟩
  · rw [computeQuantParams_quant hqt hp hn hq]
    show Except.ok (computeQuantConfigFromData c.isa (floatType t.dtype) t.store (pblocks t.numel) q >>= _) = _
    rw [he]; rfl
  · rw [k1]
    have := (abs_le.mp h3).2
    have e : step q lo hi * (1 + 1 / 2 ^ 23) = step q lo hi + step q lo hi / 2 ^ 23 := by ring
    rw [e]; linarith

/-- C85 (`test_compute_quant_config`): on every float32 or bfloat16 tensor with finite values in `[-1, 1]`, some `≤ 0` and some `≥ 0`,
and every quantized dtype, the returned scale is positive, not NaN and not infinite. -/
theorem C85_params_test (ht : t.Ok) (hft : t.dtype = .float32 ∨ t.dtype = .bfloat16) (hd : TestData (floatType t.dtype) t.store t.numel lo hi) (hqt : dtype ∈ Py.quantTypes)
    (hb : Split t.numel 0 (pblocks t.numel)) (hn : t.numel < 2 ^ 64) (hsse : Sees c.isa (floatType t.dtype) t.store t.numel (pblocks t.numel)) :
    ∃ sc z, Py.computeQuantParams c t dtype pblocks = .ok (.ret (sc, z)) ∧ 0 < sc.toRat ∧ sc.isNaN = false ∧ sc.isFin = true := by
  obtain ⟨sc, z, q, _, _, e, hf, h1, _⟩ := py_computed (dtype := dtype) ht hft hd hqt hb hn hsse
  exact ⟨sc, z, e, lt_of_lt_of_le (by positivity) h1, (isFin_not_nan hf).1, hf⟩

/-- C85 (`test_quantize_roundtrip`, third assertion), what holds: on every such float32 tensor the whole test workflow raises nothing,
does not fault, and returns every element within `scale/2 + 4e-4`; the test asserts `scale*0.5 + 1e-3 + 1e-5*|x|`, so 6e-4 is
left for the rounding inside `torch.allclose`.  Missing: bfloat16 tensors (`C85_false_bf16`), quint2x4 tensors with `numel % 4 == 0`
(C11), one-sided data (C26, C82), SSE4.2 searches (C22). -/
theorem C85_roundtrip_test_partial (ht : t.Ok) (hft : t.dtype = .float32) (hd : TestData (floatType t.dtype) t.store t.numel lo hi) (hqt : dtype ∈ Py.quantTypes)
    (hb : Split t.numel 0 (pblocks t.numel)) (hs : Sizes t.numel c.threads) (hs' : Sizes t.numel c'.threads)
    (hsse : Sees c.isa (floatType t.dtype) t.store t.numel (pblocks t.numel)) (ha : alloc ≠ 0) (ha' : alloc' ≠ 0) (h4 : ¬ (dtype = .quint2x4 ∧ t.numel % 4 = 0)) :
    ∃ sc z, Py.computeQuantParams c t dtype pblocks = .ok (.ret (sc, z)) ∧
      ∃ call, Py.quantize c t alloc sc z dtype "nearest" τ = .ok call ∧
        Always NoFault call (span alloc ((dtype.bits * t.numel + 7) / 8)) m0 (fun m =>
          ∃ call', Py.dequantize c' (returned dtype t.numel alloc m) alloc' sc z .float32 "set" = .ok call' ∧
            Always NoFault call' (span alloc' (4 * t.numel)) m0' (fun m' => ∀ i, i < t.numel →
              |(f32At m' (alloc' + 4 * i)).toRat - (f32At t.store.data (4 * i)).toRat| ≤ sc.toRat / 2 + 4 / 10000)) := by
  obtain ⟨sc, z, q, hq, hqq, e, hf, h1, h2, h3⟩ := py_computed (c := c) (dtype := dtype) ht (Or.inl hft) hd hqt hb (by have := hs.addr; omega) hsse
  have hst := hd.step hqq
  have hQ1 : (3:ℚ) ≤ 2 ^ q.bits - 1 := by exact_mod_cast (qmax_bounds hqq).1
  have hst2 : step q lo hi ≤ 2 / 3 := hst.trans (div_le_div_of_nonneg_left (by norm_num) (by norm_num) hQ1)
  have hsc : sc.toRat ≤ 1 := by
    refine h2.trans ?_
    calc step q lo hi * (1 + 1 / 2 ^ 23) ≤ 2 / 3 * (1 + 1 / 2 ^ 23) := mul_le_mul_of_nonneg_right hst2 (by norm_num)
      _ ≤ 1 := by norm_num
  refine ⟨sc, z, e, ?_⟩
  obtain ⟨call, e1, g1⟩ := C49_python_roundtrip_partial (c := c) (c' := c') (alloc := alloc) (alloc' := alloc') (m0 := m0) (m0' := m0') (τ := τ) ht hd.around.hn (Or.inl hft) hd.around.fin hqt hb hs hs' hsse
    hd.around.range hd.around.zero ha ha' e h1 (hsc.trans (by norm_num)) h4
  refine ⟨call, e1, g1.mono (fun _ h => h) (fun m ⟨call', e2, g2⟩ => ⟨call', e2, g2.mono (fun _ h => h) (fun m' hm i hi => ?_)⟩)⟩
  have := hm i hi
  have ee : elem (floatType t.dtype).dtype t.store.data 0 i = f32At t.store.data (4 * i) := by
    rw [hft]; show f32At t.store.data (0 + 4 * i) = _; rw [Nat.zero_add]
  rw [ee] at this
  refine this.trans ?_
  have : sc.toRat * (1 / 2 + 1 / 2 ^ 12) = sc.toRat / 2 + sc.toRat / 2 ^ 12 := by ring
  rw [this]
  have : sc.toRat / 2 ^ 12 ≤ 4 / 10000 := by
    rw [div_le_iff₀ (by positivity)]
    refine hsc.trans (by norm_num)
  linarith

/-- C85 is false for bfloat16 tensors: `0, 151/256, 197/256` is test data (values in `[-1, 1]`, minimum `≤ 0 ≤` maximum), and on every
kernel set, thread count and schedule the test workflow to quint4x2 and back to bfloat16 returns the second element further away
than `scale*0.5 + 1e-3 + 1e-5*|x|`. -/
theorem C85_false_bf16 (hc : Sizes 3 c.threads) (hc' : Sizes 3 c'.threads) (ha : alloc ≠ 0) (ha' : alloc' ≠ 0) :
    TestData .bf16 rand3.store 3 0 (197 / 256) ∧ Py.computeQuantParams c rand3 .quint4x2 (fun _ => [(0, 3)]) = .ok (.ret (Flt.cvt f64 rand3s, 0)) ∧
    ∃ call, Py.quantize c rand3 alloc (Flt.cvt f64 rand3s) 0 .quint4x2 "nearest" τ = .ok call ∧
      Always NoFault call (span alloc 2) m0 (fun m =>
        ∃ call', Py.dequantize c' (returned .quint4x2 3 alloc m) alloc' (Flt.cvt f64 rand3s) 0 .bfloat16 "set" = .ok call' ∧
          Always NoFault call' (span alloc' 6) m0' (fun m' =>
            (Flt.cvt f64 rand3s).toRat / 2 + 1 / 1000 + 1 / 100000 * |(elem .bf16 rand3.store.data 0 1).toRat| <
              |(bf16At m' (alloc' + 2)).toRat - (elem .bf16 rand3.store.data 0 1).toRat|)) := by
  have hv : ∀ t, t < 3 → 0 ≤ (elem .bf16 rand3.store.data 0 t).toRat ∧ (elem .bf16 rand3.store.data 0 t).toRat ≤ 197 / 256 := by decide +kernel
  refine ⟨⟨⟨by unfold AllFin; decide +kernel, ⟨⟨⟨0, by omega, by decide +kernel⟩, ?_⟩, ⟨2, by omega, by decide +kernel⟩, ?_⟩, by norm_num, by norm_num, by norm_num⟩, by norm_num, by norm_num⟩,
    rand3_params, C64_false_readme_assertion hc hc' ha ha'⟩
  · rintro v ⟨t, ht, rfl⟩; exact (hv t ht).1
  · rintro v ⟨t, ht, rfl⟩; exact (hv t ht).2

/-- `C85_false_bf16` applied to a concrete case. -/
example := C85_false_bf16 (c := Ex.c1) (c' := Ex.c2) (m0 := Ex.old) (m0' := Ex.old) (τ := Ex.quarter) (alloc := 64) (alloc' := 128) (hc := by wit)
    (hc' := by wit) (ha := by wit) (ha' := by wit)

/-! ## Comparison with rounding half to even (first assertion of `test_quantize_roundtrip`) -/

/-- The integer nearest to `q`, the even one of two (`std::nearbyint`, which `torch.quantize_per_tensor` uses). -/
def rte (q : ℚ) : ℤ :=
  if q - ⌊q⌋ < 1 / 2 then ⌊q⌋ else if 1 / 2 < q - ⌊q⌋ then ⌊q⌋ + 1 else if ⌊q⌋ % 2 = 0 then ⌊q⌋ else ⌊q⌋ + 1

/-- Not halfway between two integers. -/
def NoTie (q : ℚ) : Prop := ∀ k : ℤ, q ≠ k + 1 / 2

theorem rha_rte {q : ℚ} (h : NoTie q) : rha q = rte q := by
  have f0 : (⌊q⌋:ℚ) ≤ q := Int.floor_le q
  have f1 : q < ⌊q⌋ + 1 := Int.lt_floor_add_one q
  have h2 : q - ⌊q⌋ ≠ 1 / 2 := fun e => h ⌊q⌋ (by linarith)
  have e := rha_err q
  rw [abs_le] at e
  have key : |((rha q - rte q : ℤ) : ℚ)| < 1 := by
    push_cast
    rw [abs_lt]
    have hne : (rha q : ℚ) - q ≠ 1 / 2 := fun h' => h (rha q - 1) (by push_cast; linarith)
    have hne' : (rha q : ℚ) - q ≠ -(1 / 2) := fun h' => h (rha q) (by linarith)
    have e1 : (rha q : ℚ) - q < 1 / 2 := lt_of_le_of_ne (by linarith [e.2]) hne
    have e2 : -(1 / 2) < (rha q : ℚ) - q := lt_of_le_of_ne (by linarith [e.1]) (Ne.symm hne')
    unfold rte
    rcases lt_or_gt_of_ne h2 with hl | hl
    · rw [if_pos hl]; constructor <;> linarith
    · rw [if_neg (by linarith), if_pos hl]; push_cast; constructor <;> linarith
  have : |rha q - rte q| < 1 := by exact_mod_cast key
  have := Int.abs_lt_one_iff.mp this
  omega

/-- C85, what holds: if no scaled value is halfway between two integers (nor the float below one half in magnitude, C07), the codes are
those of the same formula with rounding half to even: `clamp(nearbyint(x * (1/scale)) + zero_point)`. -/
theorem C85_half_even_partial {dtIn : DType} (h : QArgs c.threads x dtIn dt n) (hz : |z| ≤ 2 ^ 22)
    (hf : ∀ i, i < n → Fits 32 (scaled (elem dtIn x.data 0 i) s) z)
    (ht : ∀ i, i < n → NoTie (scaled (elem dtIn x.data 0 i) s).toRat ∧ |(scaled (elem dtIn x.data 0 i) s).toRat| ≠ predHalf) :
    Always NoFault (quantize c x dtIn o (bytes dt.bits n) dt s z .nearest τ) (span o (bytes dt.bits n)) m0 (fun m =>
      ∀ i, i < n → (code dt.bits m o i : ℤ) = sat dt.bits (rte (scaled (elem dtIn x.data 0 i) s).toRat + z)) := by
  refine (C07_vector_nearest (c := c) h hz hf).mono (fun _ h => h) (fun m hm i hi => ?_)
  rcases hm i hi with g | ⟨g, _⟩
  · rw [← rha_rte (ht i hi).1]; exact g
  · exact absurd g (ht i hi).2

theorem sat_step {b : Nat} {u v : ℤ} (h : |u - v| ≤ 1) : |sat b u - sat b v| ≤ 1 := by
  unfold sat
  rw [abs_le] at h ⊢
  generalize (2 : ℤ) ^ b - 1 = q
  constructor <;> omega

theorem rha_rte_close (q : ℚ) : |rha q - rte q| ≤ 1 := by
  unfold rha rte
  have h1 := Int.floor_le q
  have h2 := Int.lt_floor_add_one q
  rcases lt_or_ge q 0 with h | h
  · rw [if_pos h]
    have a1 : ⌊-q + 1 / 2⌋ ≤ -⌊q⌋ := by
      rw [← Int.lt_add_one_iff, Int.floor_lt]; push_cast; linarith
    have a2 : -⌊q⌋ - 1 ≤ ⌊-q + 1 / 2⌋ := by rw [Int.le_floor]; push_cast; linarith
    rw [abs_le]
    split_ifs <;> constructor <;> omega
  · rw [if_neg (not_lt.mpr h)]
    have a1 : ⌊q + 1 / 2⌋ ≤ ⌊q⌋ + 1 := by
      rw [← Int.lt_add_one_iff, Int.floor_lt]; push_cast; linarith
    have a2 : ⌊q⌋ ≤ ⌊q + 1 / 2⌋ := by rw [Int.le_floor]; push_cast; linarith
    rw [abs_le]
    split_ifs <;> constructor <;> omega

/-- C85, ties included: for every tensor whose scaled values fit in 32 bits each code is at most one away from that of rounding half
to even, and they differ only at a tie or at the float below one half. -/
theorem C85_half_even_within_one {dtIn : DType} (h : QArgs c.threads x dtIn dt n) (hz : |z| ≤ 2 ^ 22)
    (hf : ∀ i, i < n → Fits 32 (scaled (elem dtIn x.data 0 i) s) z) :
    Always NoFault (quantize c x dtIn o (bytes dt.bits n) dt s z .nearest τ) (span o (bytes dt.bits n)) m0 (fun m =>
      ∀ i, i < n → |(code dt.bits m o i : ℤ) - sat dt.bits (rte (scaled (elem dtIn x.data 0 i) s).toRat + z)| ≤ 1 ∧
        ((code dt.bits m o i : ℤ) ≠ sat dt.bits (rte (scaled (elem dtIn x.data 0 i) s).toRat + z) →
          ¬ NoTie (scaled (elem dtIn x.data 0 i) s).toRat ∨ |(scaled (elem dtIn x.data 0 i) s).toRat| = predHalf)) := by
  refine (C07_vector_nearest (c := c) h hz hf).mono (fun _ h => h) (fun m hm i hi => ?_)
  rcases hm i hi with g | ⟨g, g2⟩
  · refine ⟨?_, fun hne => Or.inl (fun ht => hne ?_)⟩
    · rw [g]
      refine sat_step ?_
      have := rha_rte_close (scaled (elem dtIn x.data 0 i) s).toRat
      rwa [add_sub_add_right_eq_sub]
    · rw [← rha_rte ht]; exact g
  · refine ⟨?_, fun _ => Or.inr g⟩
    rw [g2]
    refine sat_step ?_
    rw [add_sub_add_right_eq_sub]
    generalize (scaled (elem dtIn x.data 0 i) s).toRat = p at *
    have hlt : |p| < 1 / 2 := by rw [g]; unfold predHalf; norm_num
    have hr : rte p = 0 := by
      rw [← rha_rte]
      · unfold rha
        rw [abs_lt] at hlt
        split
        · rw [neg_eq_zero, Int.floor_eq_iff]; push_cast; constructor <;> linarith
        · rw [Int.floor_eq_iff]; push_cast; constructor <;> linarith
      · intro k hk
        rw [hk, abs_lt] at hlt
        have h1 : (-1 : ℚ) < k := by linarith [hlt.1]
        have h2 : (k : ℚ) < 0 := by linarith [hlt.2]
        have h1' : -1 < k := by exact_mod_cast h1
        have h2' : k < 0 := by exact_mod_cast h2
        omega
    rw [hr]
    split <;> simp

/-- `C85_half_even_within_one` applied to a concrete case. -/
example := C85_half_even_within_one (c := Ex.c1) (x := Ex.many) (dtIn := .f32) (dt := .uint8) (n := 70) (o := 1000) (s := Ex.tenth) (τ := Ex.quarter)
    (z := 64) (m0 := Ex.old) (h := by wit) (hz := by wit) (hf := by wit)

/-- The single float 0.5. -/
def half1 : InBuf := Ex.buf (Ex.words32 [0x3f000000])

/-- C85 is false at ties: on every kernel set and thread count 0.5 with scale 1 and zero point 0 becomes 1, where rounding half to even
gives 0: a whole step, more than the `1e-3` the test allows between the two. -/
theorem C85_false_tie (hc : Sizes 1 c.threads) :
    Always NoFault (quantize c half1 .f32 o (bytes 8 1) .uint8 f1 0 .nearest τ) (span o (bytes 8 1)) m0 (fun m => code 8 m o 0 = 1) ∧
    sat 8 (rte (scaled (elem .f32 half1.data 0 0) f1).toRat + 0) = 0 := by
  have hq : QArgs c.threads half1 .f32 .uint8 1 := ⟨rfl, rfl, rfl, hc⟩
  have hv : (scaled (elem .f32 half1.data 0 0) f1).toRat = 1 / 2 := by decide +kernel
  constructor
  · refine (C07_vector_nearest (c := c) (o := o) (m0 := m0) (τ := τ) (scale := f1) (zp := 0) hq (by norm_num) (fun i hi => ?_)).mono (fun _ h => h) (fun m hm => ?_)
    · obtain rfl : i = 0 := by omega
      decide +kernel
    · rcases hm 0 (by omega) with g | ⟨g, _⟩
      · rw [hv, show sat DType.uint8.bits (rha (1 / 2) + 0) = 1 by decide +kernel] at g
        exact_mod_cast g
      · rw [hv] at g
        exact absurd g (by unfold predHalf; norm_num [abs_of_pos])
  · rw [hv]
    have : ⌊(1:ℚ) / 2⌋ = 0 := by norm_num
    unfold rte
    rw [this]
    norm_num [sat]

/-- `C85_false_tie` applied to a concrete case. -/
example := C85_false_tie (c := Ex.c1) (o := 1000) (m0 := Ex.old) (τ := Ex.quarter) (hc := by wit)

/-- A float32 tensor meeting the hypotheses: -1, 0.25, 0.75. -/
def tri : Py.Tensor := ⟨.float32, 3, 64, Ex.buf (Ex.words32 [0xbf800000, 0x3e800000, 0x3f400000])⟩

theorem tri_ok : tri.Ok ∧ TestData (floatType tri.dtype) tri.store tri.numel (-1) (3 / 4) ∧ .quint8 ∈ Py.quantTypes ∧ Split tri.numel 0 [(0, 2), (2, 3)] ∧
    (∀ i, i < 3 → Fits 32 (scaled (elem .f32 tri.store.data 0 i) f1) 0) ∧ NoTie (scaled (elem .f32 tri.store.data 0 1) f1).toRat := by
  have hv : ∀ t, t < 3 → -1 ≤ (elem .f32 tri.store.data 0 t).toRat ∧ (elem .f32 tri.store.data 0 t).toRat ≤ 3 / 4 := by decide +kernel
  refine ⟨⟨by decide, by decide⟩, ⟨⟨by unfold AllFin; decide +kernel, ⟨⟨⟨0, by decide, by decide +kernel⟩, ?_⟩, ⟨2, by decide, by decide +kernel⟩, ?_⟩, by norm_num, by norm_num, by norm_num⟩, by norm_num, by norm_num⟩,
    by decide, ⟨rfl, by decide, rfl, by decide, rfl⟩, by decide +kernel, ?_⟩
  · rintro v ⟨t, ht, rfl⟩; exact (hv t ht).1
  · rintro v ⟨t, ht, rfl⟩; exact (hv t ht).2
  · rw [show (scaled (elem .f32 tri.store.data 0 1) f1).toRat = 1 / 4 by decide +kernel]
    intro k hk
    have h4 : (4 * k + 2 : ℚ) = 1 := by linarith
    have : (4 * k + 2 : ℤ) = 1 := by exact_mod_cast h4
    omega

/-- `C85_params_test` applied to a concrete case. -/
example := C85_params_test (c := Ex.c1) (lo := (-1)) (hi := (3 / 4)) (t := tri) (dtype := .quint8) (pblocks := (fun _ => [(0, 2), (2, 3)]))
    (ht := tri_ok.1) (hft := by wit) (hd := tri_ok.2.1) (hqt := by wit) (hb := tri_ok.2.2.2.1) (hn := by wit)
    (hsse := sees_small (dt := .uint8) ⟨rfl, by decide, rfl, by decide, rfl, by decide, rfl⟩ (by decide) (fun h => by cases h))

/-- `C85_roundtrip_test_partial` applied to a concrete case. -/
example := C85_roundtrip_test_partial (c := Ex.c1) (c' := Ex.c2) (m0 := Ex.old) (m0' := Ex.old) (τ := Ex.quarter) (lo := (-1)) (hi := (3 / 4))
    (t := tri) (dtype := .quint8) (alloc := 64) (alloc' := 128) (pblocks := (fun _ => [(0, 2), (2, 3)])) (ht := tri_ok.1) (hft := by wit)
    (hd := tri_ok.2.1) (hqt := by wit) (hb := tri_ok.2.2.2.1) (hs := by wit) (hs' := by wit)
    (hsse := sees_small (dt := .uint8) ⟨rfl, by decide, rfl, by decide, rfl, by decide, rfl⟩ (by decide) (fun h => by cases h)) (ha := by wit)
    (ha' := by wit) (h4 := by wit)

end Verif.Props
