import Verif.Props.Examples
import Verif.Props.RoundTrip

/-!
# Constant tensors through the whole workflow: C74
-/

namespace Verif.Props
open Spec

section
variable {isa : Isa} {ft : FT} {x : InBuf} {n : Nat} {blocks : List (Nat × Nat)} {dt : DType} {c c' : Ctx} {o o' : Nat} {m0 m0' : Mem} {τ : F32} {v : ℚ}

theorem scaled_f1 {y : F32} (h : y.isFin = true) : (scaled y f1).isFin = true ∧ (scaled y f1).toRat = y.toRat := by
  have e1 : (invScale f1).toRat = 1 := by decide +kernel
  have e2 : (invScale f1).isFin = true := by decide +kernel
  have e : (scaled y f1).toRat = y.toRat := by
    rw [show (scaled y f1).toRat = flr f32 (y.toRat * (invScale f1).toRat) from mul_toRat h e2, e1, mul_one]
    have := isFin_iff.mp h
    exact flr_rep (rep_toRat y) (by rw [toRat_abs]; exact this.le)
  refine ⟨isFin_of_abs ?_, e⟩
  rw [e, toRat_abs]; exact isFin_iff.mp h

theorem mul_f1_exact {k : ℤ} (h : |k| ≤ 255) : (Flt.mul (Flt.ofInt f32 k) f1).isFin = true ∧ (Flt.mul (Flt.ofInt f32 k) f1).toRat = k := by
  have hk : |k| ≤ 2 ^ (f32.mb + 1) := h.trans (by decide)
  obtain ⟨a, b⟩ := ofInt_exact (f := f32) hk
  have e1 : f1.toRat = 1 := by decide +kernel
  have e : (Flt.mul (Flt.ofInt f32 k) f1).toRat = k := by
    rw [mul_toRat b (by decide), a, e1, mul_one]
    exact flr_rep (rep_int hk) (by have : |(k:ℚ)| ≤ 2 ^ (f32.mb + 1) := by exact_mod_cast hk
                                   exact this.trans pow_mb_lt_emax.le)
  refine ⟨isFin_of_abs ?_, e⟩
  rw [e]
  have : |(k:ℚ)| ≤ 2 ^ (f32.mb + 1) := by exact_mod_cast hk
  exact lt_of_le_of_lt this pow_mb_lt_emax

/-- C74, what happens to a constant tensor: the parameters are scale 1 and the middle code, and every element comes back
as an integer nearest to the constant, limited to `[-mid, 2^bits - 1 - mid]`. -/
theorem C74_constant_roundtrip (h : PArgs ft x n blocks dt) (hn : 0 < n) (hf : AllFin ft x n) (hv : ∀ t, t < n → (elem ft.dtype x.data 0 t).toRat = v) (hb : |v| ≤ 2 ^ 30)
    (hq : QArgs c.threads x ft.dtype dt n) (h' : Sizes n c'.threads) :
    computeQuantConfigFromData isa ft x blocks dt = .ret (f1, (2 ^ dt.bits - 1) / 2) ∧
    Always NoFault (quantize c x ft.dtype o (bytes dt.bits n) dt f1 ((2 ^ dt.bits - 1) / 2) .nearest τ) (span o (bytes dt.bits n)) m0 (fun m =>
      ∀ sz, bytes dt.bits n ≤ sz → Readable dt .f32 n sz →
        Always NoFault (dequantize c' ⟨sz, fun a => m (o + a)⟩ (bytes dt.bits n) dt o' (4 * n) .f32 f1 ((2 ^ dt.bits - 1) / 2) .set) (span o' (4 * n)) m0' (fun m' =>
          ∀ i, i < n → (f32At m' (o' + 4 * i)).isFin = true ∧ ∃ r : ℤ, |(r:ℚ) - v| ≤ 1 / 2 + 1 / 2 ^ 25 ∧
            (f32At m' (o' + 4 * i)).toRat = ((max (-((2 ^ dt.bits - 1) / 2)) (min (2 ^ dt.bits - 1 - (2 ^ dt.bits - 1) / 2) r) : ℤ) : ℚ))) := by
  refine ⟨C23_constant_data h hn hf hv, ?_⟩
  have hQ := codeBound h.quant
  have hB : (1:ℤ) ≤ 2 ^ dt.bits := one_le_pow₀ (by norm_num)
  refine roundtrip_codes (P := fun _ y => y.isFin = true ∧ ∃ r : ℤ, |(r:ℚ) - v| ≤ 1 / 2 + 1 / 2 ^ 25 ∧
    y.toRat = ((max (-((2 ^ dt.bits - 1) / 2)) (min (2 ^ dt.bits - 1 - (2 ^ dt.bits - 1) / 2) r) : ℤ) : ℚ)) h.quant hq h'
    ⟨by omega, by omega⟩ (fun i hi => ?_) (fun i hi r hr => ?_)
  · obtain ⟨a, b⟩ := scaled_f1 (hf i hi)
    exact ⟨a, by rw [b, hv i hi]; exact hb⟩
  · rw [(scaled_f1 (hf i hi)).2, hv i hi] at hr
    have hk : |sat dt.bits (r + (2 ^ dt.bits - 1) / 2) - (2 ^ dt.bits - 1) / 2| ≤ 255 := by
      unfold sat; rw [abs_le]; generalize (2:ℤ) ^ dt.bits = B at *; omega
    obtain ⟨a, b⟩ := mul_f1_exact hk
    refine ⟨a, r, ?_, ?_⟩
    · exact nearInt_err hr
    · rw [b]
      congr 1
      unfold sat; generalize (2:ℤ) ^ dt.bits = B at *; omega

/-- `C74_constant_roundtrip` applied to a concrete case. -/
example := C74_constant_roundtrip (isa := .avx512f) (ft := .f32) (x := (Ex.buf (Ex.words32 [0x42280000, 0x42280000, 0x42280000]))) (n := 3)
    (blocks := [(0, 1), (1, 3)]) (dt := .uint8) (c := Ex.c1) (c' := Ex.c2) (o := 1000) (o' := 3000) (m0 := Ex.old) (m0' := Ex.old) (τ := Ex.quarter)
    (v := 42) (h := ⟨rfl, by decide, rfl, by decide, rfl, by decide, rfl⟩) (hn := by wit) (hf := by unfold AllFin; decide +kernel) (hv := by wit)
    (hb := by wit) (hq := by wit) (h' := by wit)

/-- C74 for the constants that survive: integers in `[-mid, 2^bits - 1 - mid]` come back exactly.  Missing: all other
constants (`C74_false_small`, `C74_false_large`). -/
theorem C74_constant_integer_partial {k : ℤ} (h : PArgs ft x n blocks dt) (hn : 0 < n) (hf : AllFin ft x n) (hv : ∀ t, t < n → (elem ft.dtype x.data 0 t).toRat = k)
    (hk : -((2 ^ dt.bits - 1) / 2) ≤ k ∧ k ≤ 2 ^ dt.bits - 1 - (2 ^ dt.bits - 1) / 2)
    (hq : QArgs c.threads x ft.dtype dt n) (h' : Sizes n c'.threads) :
    computeQuantConfigFromData isa ft x blocks dt = .ret (f1, (2 ^ dt.bits - 1) / 2) ∧
    Always NoFault (quantize c x ft.dtype o (bytes dt.bits n) dt f1 ((2 ^ dt.bits - 1) / 2) .nearest τ) (span o (bytes dt.bits n)) m0 (fun m =>
      ∀ sz, bytes dt.bits n ≤ sz → Readable dt .f32 n sz →
        Always NoFault (dequantize c' ⟨sz, fun a => m (o + a)⟩ (bytes dt.bits n) dt o' (4 * n) .f32 f1 ((2 ^ dt.bits - 1) / 2) .set) (span o' (4 * n)) m0' (fun m' =>
          ∀ i, i < n → (f32At m' (o' + 4 * i)).toRat = (elem ft.dtype x.data 0 i).toRat)) := by
  have hQ := codeBound h.quant
  have hkb : |k| ≤ 255 := by rw [abs_le]; omega
  have hvb : |(k:ℚ)| ≤ 2 ^ 30 := by
    have : |k| ≤ 2 ^ 30 := hkb.trans (by norm_num)
    exact_mod_cast this
  obtain ⟨a, b⟩ := C74_constant_roundtrip (isa := isa) (c := c) (c' := c') (o := o) (o' := o') (τ := τ) (m0 := m0) (m0' := m0') h hn hf hv hvb hq h'
  refine ⟨a, b.mono (fun _ h => h) (fun m hm sz h1 h2 => (hm sz h1 h2).mono (fun _ h => h) (fun m' hm' i hi => ?_))⟩
  obtain ⟨_, r, hr, e⟩ := hm' i hi
  have : r = k := by
    by_contra hne
    have h1 : (1:ℤ) ≤ |r - k| := Int.one_le_abs (by omega)
    have h1 : (1:ℚ) ≤ |(r:ℚ) - k| := by exact_mod_cast h1
    norm_num at hr; linarith
  rw [e, hv i hi, this, min_eq_right hk.2, max_eq_right hk.1]

/-- `C74_constant_integer_partial` applied to a concrete case. -/
example := C74_constant_integer_partial (isa := .avx512f) (ft := .f32) (x := (Ex.buf (Ex.words32 [0x42280000, 0x42280000, 0x42280000]))) (n := 3)
    (blocks := [(0, 1), (1, 3)]) (dt := .uint8) (c := Ex.c1) (c' := Ex.c2) (o := 1000) (o' := 3000) (m0 := Ex.old) (m0' := Ex.old) (τ := Ex.quarter)
    (k := 42) (h := ⟨rfl, by decide, rfl, by decide, rfl, by decide, rfl⟩) (hn := by wit) (hf := by unfold AllFin; decide +kernel) (hv := by wit)
    (hk := by wit) (hq := by wit) (h' := by wit)

/-- C74 is false for small constants: every constant of magnitude below one half comes back as zero, on every
configuration - the reconstruction error is the constant itself. -/
theorem C74_false_small (h : PArgs ft x n blocks dt) (hn : 0 < n) (hf : AllFin ft x n) (hv : ∀ t, t < n → (elem ft.dtype x.data 0 t).toRat = v) (hb : |v| < predHalf)
    (hq : QArgs c.threads x ft.dtype dt n) (h' : Sizes n c'.threads) :
    computeQuantConfigFromData isa ft x blocks dt = .ret (f1, (2 ^ dt.bits - 1) / 2) ∧
    Always NoFault (quantize c x ft.dtype o (bytes dt.bits n) dt f1 ((2 ^ dt.bits - 1) / 2) .nearest τ) (span o (bytes dt.bits n)) m0 (fun m =>
      ∀ sz, bytes dt.bits n ≤ sz → Readable dt .f32 n sz →
        Always NoFault (dequantize c' ⟨sz, fun a => m (o + a)⟩ (bytes dt.bits n) dt o' (4 * n) .f32 f1 ((2 ^ dt.bits - 1) / 2) .set) (span o' (4 * n)) m0' (fun m' =>
          ∀ i, i < n → (f32At m' (o' + 4 * i)).toRat = 0)) := by
  have hB : (1:ℤ) ≤ 2 ^ dt.bits := one_le_pow₀ (by norm_num)
  unfold predHalf at hb
  have hvb : |v| ≤ 2 ^ 30 := hb.le.trans (by norm_num)
  obtain ⟨a, b⟩ := C74_constant_roundtrip (isa := isa) (c := c) (c' := c') (o := o) (o' := o') (τ := τ) (m0 := m0) (m0' := m0') h hn hf hv hvb hq h'
  refine ⟨a, b.mono (fun _ h => h) (fun m hm sz h1 h2 => (hm sz h1 h2).mono (fun _ h => h) (fun m' hm' i hi => ?_))⟩
  obtain ⟨_, r, hr, e⟩ := hm' i hi
  have : r = 0 := by
    by_contra hne
    have h1 : (1:ℚ) ≤ |(r:ℚ)| := by exact_mod_cast Int.one_le_abs hne
    have h2 : |(r:ℚ)| ≤ |(r:ℚ) - v| + |v| := by have := abs_add_le ((r:ℚ) - v) v; rwa [sub_add_cancel] at this
    norm_num at hr hb; linarith
  rw [e, this]
  have : max (-((2 ^ dt.bits - 1) / 2)) (min (2 ^ dt.bits - 1 - (2 ^ dt.bits - 1) / 2) 0) = (0:ℤ) := by
    generalize (2:ℤ) ^ dt.bits = B at *; omega
  rw [this]; norm_num

/-- `C74_false_small` applied to a concrete case. -/
example := C74_false_small (isa := .avx512f) (ft := .f32) (x := (Ex.buf (Ex.words32 [0x3e800000, 0x3e800000, 0x3e800000]))) (n := 3)
    (blocks := [(0, 1), (1, 3)]) (dt := .uint8) (c := Ex.c1) (c' := Ex.c2) (o := 1000) (o' := 3000) (m0 := Ex.old) (m0' := Ex.old) (τ := Ex.quarter)
    (v := (1 / 4)) (h := ⟨rfl, by decide, rfl, by decide, rfl, by decide, rfl⟩) (hn := by wit) (hf := by unfold AllFin; decide +kernel) (hv := by wit)
    (hb := by unfold predHalf; norm_num) (hq := by wit) (h' := by wit)

/-- C74 is false for large constants: every constant from `2^bits` up to `2^30` comes back as `2^bits - 1 - mid`
(128 for uint8), on every configuration. -/
theorem C74_false_large (h : PArgs ft x n blocks dt) (hn : 0 < n) (hf : AllFin ft x n) (hv : ∀ t, t < n → (elem ft.dtype x.data 0 t).toRat = v)
    (hl : 2 ^ dt.bits ≤ v) (hb : v ≤ 2 ^ 30) (hq : QArgs c.threads x ft.dtype dt n) (h' : Sizes n c'.threads) :
    computeQuantConfigFromData isa ft x blocks dt = .ret (f1, (2 ^ dt.bits - 1) / 2) ∧
    Always NoFault (quantize c x ft.dtype o (bytes dt.bits n) dt f1 ((2 ^ dt.bits - 1) / 2) .nearest τ) (span o (bytes dt.bits n)) m0 (fun m =>
      ∀ sz, bytes dt.bits n ≤ sz → Readable dt .f32 n sz →
        Always NoFault (dequantize c' ⟨sz, fun a => m (o + a)⟩ (bytes dt.bits n) dt o' (4 * n) .f32 f1 ((2 ^ dt.bits - 1) / 2) .set) (span o' (4 * n)) m0' (fun m' =>
          ∀ i, i < n → (f32At m' (o' + 4 * i)).toRat = ((2 ^ dt.bits - 1 - (2 ^ dt.bits - 1) / 2 : ℤ) : ℚ))) := by
  have hB : (1:ℤ) ≤ 2 ^ dt.bits := one_le_pow₀ (by norm_num)
  have h0 : 0 ≤ v := le_trans (by positivity) hl
  have hvb : |v| ≤ 2 ^ 30 := by rw [abs_of_nonneg h0]; exact hb
  obtain ⟨a, b⟩ := C74_constant_roundtrip (isa := isa) (c := c) (c' := c') (o := o) (o' := o') (τ := τ) (m0 := m0) (m0' := m0') h hn hf hv hvb hq h'
  refine ⟨a, b.mono (fun _ h => h) (fun m hm sz h1 h2 => (hm sz h1 h2).mono (fun _ h => h) (fun m' hm' i hi => ?_))⟩
  obtain ⟨_, r, hr, e⟩ := hm' i hi
  have : (2:ℤ) ^ dt.bits - 1 ≤ r := by
    have h3 : (2:ℚ) ^ dt.bits - 1 ≤ r := by
      have := (abs_le.mp hr).1
      norm_num at this; linarith
    exact_mod_cast h3
  rw [e]
  congr 1
  generalize (2:ℤ) ^ dt.bits = B at *; omega

/-- `C74_false_large` applied to a concrete case. -/
example := C74_false_large (isa := .avx512f) (ft := .f32) (x := (Ex.buf (Ex.words32 [0x447a0000, 0x447a0000, 0x447a0000]))) (n := 3)
    (blocks := [(0, 1), (1, 3)]) (dt := .uint8) (c := Ex.c1) (c' := Ex.c2) (o := 1000) (o' := 3000) (m0 := Ex.old) (m0' := Ex.old) (τ := Ex.quarter)
    (v := 1000) (h := ⟨rfl, by decide, rfl, by decide, rfl, by decide, rfl⟩) (hn := by wit) (hf := by unfold AllFin; decide +kernel) (hv := by wit)
    (hl := by wit) (hb := by wit) (hq := by wit) (h' := by wit)

/-- C25 is false on SSE4.2: the sixteen floats of `lane3` lie around zero, their minimum -100 does not count (C22), the parameters
for uint4 are scale 1 and zero point 7, and whatever configuration then quantizes and dequantizes, -100 comes back as -7. -/
theorem C25_false_sse42 (hc : Sizes 16 c.threads) (h' : Sizes 16 c'.threads) :
    PArgs .f32 lane3 16 [(0, 16)] .uint4 ∧ AllFin .f32 lane3 16 ∧ Range .f32 lane3.data 16 (-100) 100 ∧
    computeQuantConfigFromData .sse42 .f32 lane3 [(0, 16)] .uint4 = .ret (f1, 7) ∧ (elem .f32 lane3.data 0 3).toRat = -100 ∧
    Always NoFault (quantize c lane3 .f32 o 8 .uint4 f1 7 .nearest τ) (span o 8) m0 (fun m =>
      Always NoFault (dequantize c' ⟨8, fun a => m (o + a)⟩ 8 .uint4 o' 64 .f32 f1 7 .set) (span o' 64) m0' (fun m' =>
        (f32At m' (o' + 4 * 3)).toRat = -7)) := by
  have hf := C22_false_sse42.2.1
  have hv : (elem .f32 lane3.data 0 3).toRat = -100 := by decide +kernel
  have hall : ∀ t, t < 16 → |(elem .f32 lane3.data 0 t).toRat| ≤ 2 ^ 30 := by decide +kernel
  have hp : PArgs .f32 lane3 16 [(0, 16)] .uint4 := ⟨rfl, by decide, rfl, by omega, rfl⟩
  have hq : QArgs c.threads lane3 FT.f32.dtype .uint4 16 := ⟨rfl, rfl, rfl, hc⟩
  refine ⟨hp, hf, C22_false_sse42.2.2.1, retIs_iff (by decide +kernel), hv, ?_⟩
  refine (roundtrip_codes (ft := .f32) (dt := .uint4) (x := lane3) (n := 16) (s := f1) (z := 7) (o := o) (o' := o') (m0 := m0) (m0' := m0') (τ := τ) (P := fun i y => i = 3 → y.toRat = -7) rfl hq h' ⟨by norm_num, by norm_num [DType.bits]⟩ (fun i hi => ?_)
    (fun i hi r hr h3 => ?_)).mono (fun _ h => h) (fun m hm => (hm 8 (by decide) (fun h => by cases h)).mono (fun _ h => h) (fun m' hm' => hm' 3 (by omega) rfl))
  · obtain ⟨a, b⟩ := scaled_f1 (hf i hi)
    exact ⟨a, by rw [b]; exact hall i hi⟩
  · subst h3
    rw [(scaled_f1 (hf 3 hi)).2, show (elem FT.f32.dtype lane3.data 0 3).toRat = -100 from hv] at hr
    have hr := (abs_le.mp (nearInt_err hr)).2
    have hr : (r:ℚ) ≤ -99 := by norm_num at hr; linarith
    have hr : r ≤ -99 := by exact_mod_cast hr
    have e : sat DType.uint4.bits (r + 7) - 7 = -7 := by unfold sat; norm_num [DType.bits]; omega
    rw [e]
    rw [(mul_f1_exact (k := -7) (by norm_num)).2]; norm_num

/-- `C25_false_sse42` applied to a concrete case. -/
example := C25_false_sse42 (c := Ex.c1) (c' := Ex.c2) (o := 1000) (o' := 3000) (m0 := Ex.old) (m0' := Ex.old) (τ := Ex.quarter) (hc := by wit)
    (h' := by wit)

end

/-- Three times 42, 0.25, 1000: constants of each kind. -/
example : PArgs .f32 (Ex.buf (Ex.words32 [0x42280000, 0x42280000, 0x42280000])) 3 [(0, 1), (1, 3)] .uint8 ∧
    AllFin .f32 (Ex.buf (Ex.words32 [0x42280000, 0x42280000, 0x42280000])) 3 ∧
    (∀ t, t < 3 → (elem .f32 (Ex.buf (Ex.words32 [0x42280000, 0x42280000, 0x42280000])).data 0 t).toRat = (42 : ℤ)) ∧
    (∀ t, t < 3 → (elem .f32 (Ex.buf (Ex.words32 [0x3e800000, 0x3e800000, 0x3e800000])).data 0 t).toRat = 1 / 4) ∧
    (∀ t, t < 3 → (elem .f32 (Ex.buf (Ex.words32 [0x447a0000, 0x447a0000, 0x447a0000])).data 0 t).toRat = 1000) ∧
    QArgs 4 (Ex.buf (Ex.words32 [0x42280000, 0x42280000, 0x42280000])) FT.f32.dtype .uint8 3 := by
  refine ⟨⟨rfl, by decide, rfl, by omega, rfl, by omega, rfl⟩, ?_, ?_, ?_, ?_, ⟨rfl, rfl, rfl, by norm_num, by norm_num, by norm_num⟩⟩
  · unfold AllFin; decide +kernel
  · decide +kernel
  · decide +kernel
  · decide +kernel

end Verif.Props
