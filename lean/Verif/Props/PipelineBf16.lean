import Verif.Props.Examples
import Verif.Proofs.PipeBf16
import Verif.Props.Pipeline
import Verif.Props.Bf16Arith

/-!
# bf16 tensors: the fused call and the whole workflow: C81

`dequantB`, `storeB`: what the fused call on a bf16 tensor stores, in IEEE bf16 arithmetic (`Flt bf16`).
-/

namespace Verif.Spec

/-- The value of code `q` computed in bf16: `bf16(q - zero_point) * bf16(scale)`, rounded to bf16. -/
def dequantB (scale : F32) (zp : ℤ) (q : Nat) : Flt bf16 := Flt.mul (Flt.cvt bf16 (Flt.ofInt f32 (q - zp))) (Flt.cvt bf16 scale)

/-- ... combined with the bf16 word `old` according to the reduce operation, as a word. -/
def storeB (op : ReduceOp) (old : Nat) (scale : F32) (zp : ℤ) (q : Nat) : Nat :=
  match op with
  | .set => (dequantB scale zp q).toBits
  | .add => (Flt.add (Flt.ofBits bf16 old) (dequantB scale zp q)).toBits

end Verif.Spec

namespace Verif.Props
open Spec

variable {isa : Isa} {ft : FT} {x : InBuf} {n : Nat} {blocks : List (Nat × Nat)} {dt : DType} {c c' : Ctx} {o o' : Nat} {m0 m0' : Mem}
  {τ scale : F32} {mode : RoundMode} {lo hi : ℚ} {zp : ℤ} {op : ReduceOp}

theorem roundAbs16 (q : ℚ) : Flt.roundAbs bf16 q ≤ 32640 := by
  have := roundAbs_valid (f := bf16) q
  rwa [infMag_bf16] at this

theorem cvt_word {v : F32} (hf : v.isFin = true) : Flt.ofBits bf16 (f32ToBf16 v) = Flt.cvt bf16 v := by
  have hm : v.mag < f32.infMag := by simpa [Flt.isFin] using hf
  have hn : v.isNaN = false := by unfold Flt.isNaN; simp; omega
  have hi : v.isInf = false := by unfold Flt.isInf; simp; omega
  have hv : v.Valid := by unfold Flt.Valid; rw [magLim_f32]; rw [infMag_f32] at hm; omega
  rw [f32ToBf16_cvt hv hn]
  apply ofBits_toBits_bf16
  unfold Flt.cvt
  rw [hn, hi, if_neg (by simp), if_neg (by simp)]
  exact lt_of_le_of_lt (roundAbs16 _) (by norm_num)

theorem dequantB_eq {q : Nat} (hs : scale.isFin = true) (hk : |(q:ℤ) - zp| ≤ 2 ^ 24) :
    Flt.ofBits bf16 (bf16Mul (f32ToBf16 (Flt.ofInt f32 (q - zp))) (f32ToBf16 scale)) = dequantB scale zp q ∧
    bf16Mul (f32ToBf16 (Flt.ofInt f32 (q - zp))) (f32ToBf16 scale) = (dequantB scale zp q).toBits := by
  obtain ⟨_, g1⟩ := ofInt_exact (f := f32) (z := (q:ℤ) - zp) (hk.trans (by norm_num [f32]))
  have e1 := (C65_bf16_arithmetic_is_ieee (a := f32ToBf16 (Flt.ofInt f32 ((q:ℤ) - zp))) (b := f32ToBf16 scale) f32ToBf16_lt f32ToBf16_lt).2.2.1
  have e2 := mul_ieee (a := f32ToBf16 (Flt.ofInt f32 ((q:ℤ) - zp))) (b := f32ToBf16 scale) f32ToBf16_lt f32ToBf16_lt
  rw [cvt_word hs, cvt_word g1] at e1 e2
  exact ⟨e1, e2⟩

/-- C81, the formula: what the fused call on a bf16 tensor stores is the bf16 product `bf16(q - zp) * bf16(scale)` of the code
`q` that `quantize` would store (scalar rounding), or the bf16 sum of that and the old contents. -/
theorem C81_fused_bf16_formula (h : QArgs c.threads x .bf16 dt n) (hz : |zp| ≤ 2 ^ 23) (hs : scale.isFin = true)
    (hd : ∀ i, i < n → Defined mode τ (scaled (elem .bf16 x.data 0 i) scale) zp) :
    Always NoFault (fused c x .bf16 o (2 * n) dt scale zp mode op τ) (span o (2 * n)) m0
      (fun m => ∀ i, i < n → u16At m (o + 2 * i) = storeB op (u16At m0 (o + 2 * i)) scale zp
        (sat dt.bits (rounded mode τ.toRat (scaled (elem .bf16 x.data 0 i) scale).toRat + zp)).toNat) := by
  have hz' : Zp32 zp := by have := abs_le.mp hz; norm_num at this; unfold Zp32; norm_num; omega
  have hzs : ZpSub zp := by have := abs_le.mp hz; norm_num at this; unfold ZpSub; norm_num; omega
  have hx : x.size = FT.bf16.size * n := h.size
  refine ⟨_, fused_jobs (ft := .bf16) h.outQuant hx, ?_⟩
  have := fused_sched (E := NoFault) (ft := .bf16) (c := c) (o := o) (m0 := m0) (scale := scale) (zp := zp) (op := op) (τ := τ) (mode := mode) noFault_oob h.outQuant hx h.sizes
    (fun i hi => Or.inl ⟨_, qStep_defined h.outQuant hz' (by rw [elem_spec]; exact hd i hi)⟩)
    (fun q hq => Or.inr (subI_64 hzs (lt_of_le_of_lt (hq.trans qmax_le) (by norm_num))))
  refine ⟨this.safe, this.raceFree, this.progress, this.bounded, fun k d hr hdn i hi => ?_⟩
  obtain ⟨q, hq, g⟩ := (this.post k d hr hdn).1.1 i hi
  have hq : qStep mode dt.qmax (elem .bf16 x.data 0 i) τ (invScale scale) zp = .ret q := hq
  rw [qStep_defined h.outQuant hz' (hd i hi)] at hq
  injection hq with hq
  simp only at g
  have e : ((clampI dt.qmax (rounded mode τ.toRat (scaled (elem .bf16 x.data 0 i) scale).toRat + zp) : ℕ) : ℤ) = _ := clampI_sat h.outQuant _
  rw [hq] at e
  have e2 : q = (sat dt.bits (rounded mode τ.toRat (scaled (elem .bf16 x.data 0 i) scale).toRat + zp)).toNat := by
    rw [← e, Int.toNat_natCast]
  have hq255 : q ≤ 255 := by
    rw [← hq]; exact (clampI_le _ _).trans qmax_le
  have hk : |(q:ℤ) - zp| ≤ 2 ^ 24 := by
    have := abs_le.mp hz
    norm_num at this
    rw [abs_le]; norm_num; omega
  obtain ⟨k1, k2⟩ := dequantB_eq (q := q) hs hk
  rw [g, ← e2]
  cases op
  · exact k2
  · show bf16Add _ _ = (Flt.add _ _).toBits
    rw [add_ieee (u16At_lt _ _) (by exact f32ToBf16_lt), k1]

/-- `C81_fused_bf16_formula` applied to a concrete case. -/
example := C81_fused_bf16_formula (x := Ex.manyB) (n := 70) (dt := .uint8) (c := Ex.c1) (o := 1000) (m0 := Ex.old) (τ := Ex.quarter)
    (scale := Ex.tenth) (mode := .nearest) (zp := 64) (op := .add) (h := by wit) (hz := by wit) (hs := by wit) (hd := by wit)

/-! ## Errors -/

/-- `y` is a finite float within `steps` ideal steps (up to 1/64 of a step) plus the bf16 resolution `|v|/127` of `v`. -/
def Within16 (steps : ℚ) (dt : DType) (lo hi v : ℚ) (y : F32) : Prop :=
  y.isFin = true ∧ |y.toRat - v| ≤ step dt lo hi * (steps + 1 / 64) + |v| / 127

/-- `y` is `old + v` up to `steps` ideal steps (and 1/32 of a step), the bf16 resolution of `v` and that of the sum. -/
def WithinSum16 (steps : ℚ) (dt : DType) (lo hi old v : ℚ) (y : F32) : Prop :=
  y.isFin = true ∧ |y.toRat - (old + v)| ≤ step dt lo hi * (steps + 1 / 32) + |v| / 126 + |old + v| / 255

/-- From an error relative to the grid value to an error relative to the element. -/
theorem decoded {s : F32} {k : ℤ} {v x : ℚ} (hs0 : 0 < s.toRat) (hS : 0 < step dt lo hi) (hs : |s.toRat - step dt lo hi| ≤ step dt lo hi / 2 ^ 23)
    (hu : |(k:ℚ) - x / s.toRat| ≤ tol mode + 1 / 2 ^ 13 + 1 / 2 ^ 25) (hv : |v - k * s.toRat| ≤ |(k:ℚ) * s.toRat| / 127 + s.toRat / 2 ^ 12 + s.toRat / 256) :
    |v - x| ≤ step dt lo hi * (tol mode + 1 / 64) + |x| / 127 := by
  set S := step dt lo hi
  set σ := s.toRat
  have t1 := tol_le (mode := mode)
  have t0 := half_le_tol (mode := mode)
  have h3 : |(k:ℚ) * σ - x| ≤ (tol mode + 1 / 2 ^ 13 + 1 / 2 ^ 25) * σ := by
    have : (k:ℚ) * σ - x = ((k:ℚ) - x / σ) * σ := by field_simp
    rw [this, abs_mul, abs_of_pos hs0]
    exact mul_le_mul_of_nonneg_right hu hs0.le
  have h4 : |(k:ℚ) * σ| ≤ |x| + (tol mode + 1 / 2 ^ 13 + 1 / 2 ^ 25) * σ := by
    have := abs_add_le ((k:ℚ) * σ - x) x
    rw [sub_add_cancel] at this
    linarith
  have h5 : |v - x| ≤ |v - k * σ| + |(k:ℚ) * σ - x| := by
    have := abs_add_le (v - k * σ) ((k:ℚ) * σ - x)
    rwa [sub_add_sub_cancel] at this
  have hσ : σ ≤ S + S / 2 ^ 23 := by linarith [(abs_le.mp hs).2]
  have hm : tol mode * σ ≤ tol mode * S + S / 2 ^ 23 := by
    have a1 : tol mode * σ ≤ tol mode * (S + S / 2 ^ 23) := mul_le_mul_of_nonneg_left hσ (by linarith)
    have a2 : tol mode * (S / 2 ^ 23) ≤ 1 * (S / 2 ^ 23) := mul_le_mul_of_nonneg_right t1 (by positivity)
    linarith
  have hm2 : tol mode * S ≤ S := by
    have := mul_le_mul_of_nonneg_right t1 hS.le
    linarith
  have e1 : (tol mode + 1 / 2 ^ 13 + 1 / 2 ^ 25) * σ = tol mode * σ + σ / 2 ^ 13 + σ / 2 ^ 25 := by ring
  have e2 : S * (tol mode + 1 / 64) = tol mode * S + S / 64 := by ring
  rw [e1] at h3 h4
  rw [e2]
  linarith

/-- One float32 addition. -/
theorem added {u v : F32} {x D : ℚ} (hu : u.isFin = true) (hv : v.isFin = true) (hd : |v.toRat - x| ≤ D) (hb : |u.toRat + x| + D ≤ 2 ^ 126) :
    (Flt.add u v).isFin = true ∧ |(Flt.add u v).toRat - (u.toRat + x)| ≤ D + (|u.toRat + x| + D) / 2 ^ 24 + 1 / 2 ^ 150 := by
  have e : (Flt.add u v).toRat = flr f32 (u.toRat + v.toRat) := add_toRat hu hv
  have c1 : |u.toRat + v.toRat| ≤ |u.toRat + x| + D := by
    have := abs_add_le (u.toRat + x) (v.toRat - x)
    rw [show u.toRat + x + (v.toRat - x) = u.toRat + v.toRat by ring] at this
    linarith
  obtain ⟨d1, d2⟩ := flr_sum (q := u.toRat + v.toRat) (c1.trans (hb.trans (by norm_num)))
  refine ⟨isFin_of_abs (by rw [e]; exact d2), ?_⟩
  rw [e]
  have h := abs_add_le (flr f32 (u.toRat + v.toRat) - (u.toRat + v.toRat)) (v.toRat - x)
  rw [show flr f32 (u.toRat + v.toRat) - (u.toRat + v.toRat) + (v.toRat - x) = flr f32 (u.toRat + v.toRat) - (u.toRat + x) by ring] at h
  have c2 : |u.toRat + v.toRat| / 2 ^ 24 ≤ (|u.toRat + x| + D) / 2 ^ 24 := div_le_div_of_nonneg_right c1 (by positivity)
  linarith

/-- A bf16 word (read as a float `y`) that is the float `t` rounded, or a flushed subnormal. -/
def StoredAs (t y : F32) : Prop := (|t.toRat| ≤ 2 ^ 127 → y.isFin = true ∧ y.toRat = flr bf16 t.toRat) ∨ (|t.toRat| < 1 / 2 ^ 126 ∧ y.isFin = true ∧ y.toRat = 0)

theorem summed {t y : F32} {old x : ℚ} (b1 : 1 / 2 ^ 108 ≤ step dt lo hi) (hS : 0 < step dt lo hi)
    (ht : |t.toRat - (old + x)| ≤ (step dt lo hi * (tol mode + 1 / 64) + |x| / 127) + (|old + x| + (step dt lo hi * (tol mode + 1 / 64) + |x| / 127)) / 2 ^ 24 + 1 / 2 ^ 150)
    (hb : |old + x| + (step dt lo hi * (tol mode + 1 / 64) + |x| / 127) ≤ 2 ^ 126) (hy : StoredAs t y) : WithinSum16 (tol mode) dt lo hi old x y := by
  unfold WithinSum16
  set S := step dt lo hi
  have t1 := tol_le (mode := mode)
  have t0 := half_le_tol (mode := mode)
  have hm2 : tol mode * S ≤ S := by
    have := mul_le_mul_of_nonneg_right t1 hS.le
    linarith
  have hm0 : 0 ≤ tol mode * S := mul_nonneg (by linarith) hS.le
  have e2 : S * (tol mode + 1 / 64) = tol mode * S + S / 64 := by ring
  have e3 : S * (tol mode + 1 / 32) = tol mode * S + S / 32 := by ring
  rw [e2] at ht hb
  rw [e3]
  have x0 := abs_nonneg x
  have q0 := abs_nonneg (old + x)
  have tq : |t.toRat| ≤ |old + x| + |t.toRat - (old + x)| := by
    have := abs_add_le (old + x) (t.toRat - (old + x))
    rwa [add_sub_cancel] at this
  have p150 : (1:ℚ) / 2 ^ 150 ≤ S / 2 ^ 40 := by
    rw [le_div_iff₀ (by positivity)]; exact le_trans (by norm_num) b1
  have p134 : (1:ℚ) / 2 ^ 134 ≤ S / 2 ^ 20 := by
    rw [le_div_iff₀ (by positivity)]; exact le_trans (by norm_num) b1
  have p126 : (1:ℚ) / 2 ^ 126 ≤ S / 2 ^ 15 := by
    rw [le_div_iff₀ (by positivity)]; exact le_trans (by norm_num) b1
  rcases hy with hy | ⟨hz, hyf, hy⟩
  · have h126 : (2:ℚ) ^ 126 + 2 ^ 126 / 2 ^ 24 + 1 ≤ 2 ^ 127 := by norm_num
    have h150 : (1:ℚ) / 2 ^ 150 ≤ 1 := by norm_num
    have hb2 : (|old + x| + (tol mode * S + S / 64 + |x| / 127)) / 2 ^ 24 ≤ 2 ^ 126 / 2 ^ 24 := div_le_div_of_nonneg_right hb (by positivity)
    have ht127 : |t.toRat| ≤ 2 ^ 127 := by linarith
    obtain ⟨g1, g2⟩ := hy ht127
    refine ⟨g1, ?_⟩
    rw [g2]
    have r := (b16_round ht127).1
    have h := abs_add_le (flr bf16 t.toRat - t.toRat) (t.toRat - (old + x))
    rw [sub_add_sub_cancel] at h
    have tq2 : |t.toRat| / 2 ^ 8 ≤ (|old + x| + |t.toRat - (old + x)|) / 2 ^ 8 := div_le_div_of_nonneg_right tq (by positivity)
    linarith
  · refine ⟨hyf, ?_⟩
    rw [hy]
    have h := abs_sub_abs_le_abs_sub (old + x) t.toRat
    have h2 : |0 - (old + x)| = |old + x| := by rw [zero_sub, abs_neg]
    rw [abs_sub_comm (old + x)] at h
    rw [h2]
    linarith

theorem fits16 {old : ℚ} (ha : Around ft x n lo hi) {i : Nat} (hi' : i < n) (b2 : step dt lo hi ≤ 2 ^ 100) (ho : |old| ≤ 2 ^ 120) :
    |old + (elem ft.dtype x.data 0 i).toRat| + (step dt lo hi * (tol mode + 1 / 64) + |(elem ft.dtype x.data 0 i).toRat| / 127) ≤ 2 ^ 126 := by
  have k2 : step dt lo hi * (tol mode + 1 / 64) ≤ 2 ^ 100 * 2 := by
    refine mul_le_mul b2 ?_ ?_ (by positivity)
    · have := tol_le (mode := mode); linarith
    · have := half_le_tol (mode := mode); linarith
  have k3 := abs_add_le old (elem ft.dtype x.data 0 i).toRat
  have k4 := ha.abs hi'
  have k5 := ha.narrow
  have k6 : |(elem ft.dtype x.data 0 i).toRat| / 127 ≤ |(elem ft.dtype x.data 0 i).toRat| := div_le_self (abs_nonneg _) (by norm_num)
  have : (2:ℚ) ^ 120 + 2 ^ 100 + 2 ^ 100 * 2 + 2 ^ 100 ≤ 2 ^ 126 := by norm_num
  linarith

theorem scale16 {s : F32} (b1 : 1 / 2 ^ 108 ≤ step dt lo hi) (b2 : step dt lo hi ≤ 2 ^ 100) (hs : |s.toRat - step dt lo hi| ≤ step dt lo hi / 2 ^ 23) :
    1 / 2 ^ 112 ≤ s.toRat ∧ s.toRat ≤ 2 ^ 110 := by
  obtain ⟨h1, h2⟩ := abs_le.mp hs
  set S := step dt lo hi
  have : (1:ℚ) / 2 ^ 112 ≤ 1 / 2 ^ 108 * (1 / 2) := by norm_num
  have : (2:ℚ) ^ 100 * 2 ≤ 2 ^ 110 := by norm_num
  constructor <;> linarith

theorem isBf16_lt {v : F32} {w : Nat} (hf : v.isFin = true) (h : IsBf16Of v w) : w < 65536 := by
  have hm : v.mag < f32.infMag := by simpa [Flt.isFin] using hf
  have hn : v.isNaN = false := by unfold Flt.isNaN; simp; omega
  have hv : v.Valid := by unfold Flt.Valid; rw [magLim_f32]; rw [infMag_f32] at hm; omega
  unfold IsBf16Of at h
  rw [hn, if_neg (by simp)] at h
  rw [h, ← f32ToBf16_cvt hv hn]
  exact f32ToBf16_lt

theorem storedAs_of {t : F32} {w : Nat} (hf : t.isFin = true) (hw16 : w < 65536) (h : IsBf16Of t w ∨ (|t.toRat| < 1 / 2 ^ 126 ∧ w % 32768 = 0)) :
    StoredAs t (Flt.ofBits f32 (65536 * w)) := by
  rcases h with h | ⟨h1, h2⟩
  · exact Or.inl (fun hb => isBf16_value hf hb h)
  · exact Or.inr ⟨h1, word_zero hw16 h2⟩

/-- C81. bf16 workflow for finite data around zero (float32 or bf16): computing parameters succeeds, and quantizing and
dequantizing to bf16 with them brings every element back within half a step (nearest) or one step (stochastic) of the ideal
grid, up to 1/64 of a step, plus the resolution of bf16. -/
theorem C81_roundtrip_bf16 (h : PArgs ft x n blocks dt) (hs : Sees isa ft x n blocks) (ha : Around ft x n lo hi)
    (hq : QArgs c.threads x ft.dtype dt n) (h' : Sizes n c'.threads) (hτ : Threshold mode τ) :
    ∃ s z, computeQuantConfigFromData isa ft x blocks dt = .ret (s, z) ∧
      Always NoFault (quantize c x ft.dtype o (bytes dt.bits n) dt s z mode τ) (span o (bytes dt.bits n)) m0 (fun m =>
        ∀ sz, bytes dt.bits n ≤ sz →
          Always NoFault (dequantize c' ⟨sz, fun a => m (o + a)⟩ (bytes dt.bits n) dt o' (2 * n) .bf16 s z .set) (span o' (2 * n)) m0' (fun m' =>
            ∀ i, i < n → Within16 (tol mode) dt lo hi (elem ft.dtype x.data 0 i).toRat (bf16At m' (o' + 2 * i)))) := by
  obtain ⟨s, z, he, hsf, h1, h2, hn, A, B, hc⟩ := computed_step h hs ha
  obtain ⟨b1, b2, hS⟩ := step_bounds h.quant ha
  obtain ⟨h3, h4⟩ := scale16 b1 b2 hn
  refine ⟨s, z, he, (codes_near hc hq ha.fin h1 h2 hτ).mono (fun _ h => h) (fun m hm sz hsz => ?_)⟩
  refine (dequant_bf16_near (c := c') ⟨h.quant, rfl, hsz, h'⟩ hc.zp (le_trans (by norm_num) h3) (h4.trans (by norm_num))).mono (fun _ h => h) (fun m' hm' i hi => ?_)
  obtain ⟨g1, g2⟩ := hm' i hi
  have e : code dt.bits (fun a => m (o + a)) 0 i = code dt.bits m o i := code_shift _ _ _ _
  rw [show (InBuf.data ⟨sz, fun a => m (o + a)⟩) = fun a => m (o + a) from rfl, e] at g2
  obtain ⟨k1, k2⟩ := hm i hi
  have hs0 : 0 < s.toRat := lt_of_lt_of_le (by positivity) h1
  refine ⟨g1, decoded hs0 hS hn k2 (g2.trans ?_)⟩
  set k : ℚ := (((code dt.bits m o i : ℤ) - z : ℤ) : ℚ)
  have e1 : |k * s.toRat| = |k| * s.toRat := by rw [abs_mul, abs_of_pos hs0]
  have e2 : s.toRat * (max |k| 1 / 2 ^ 8 + 1 / 2 ^ 14) = max |k| 1 * s.toRat / 2 ^ 8 + s.toRat / 2 ^ 14 := by ring
  have e3 : max |k| 1 * s.toRat ≤ |k| * s.toRat + s.toRat := by
    have : max |k| 1 ≤ |k| + 1 := max_le (by linarith) (by linarith [abs_nonneg k])
    calc max |k| 1 * s.toRat ≤ (|k| + 1) * s.toRat := mul_le_mul_of_nonneg_right this hs0.le
      _ = _ := by ring
  have e4 : 0 ≤ |k| * s.toRat := mul_nonneg (abs_nonneg _) hs0.le
  rw [e1, e2]
  linarith

/-- `C81_roundtrip_bf16` applied to a concrete case. -/
example := C81_roundtrip_bf16 (isa := .avx512f) (ft := .bf16) (x := Ex.manyB) (n := 70) (blocks := Ex.blocks) (dt := .uint8) (c := Ex.c1) (c' := Ex.c2)
    (o := 1000) (o' := 3000) (m0 := Ex.old) (m0' := Ex.old) (τ := Ex.quarter) (mode := .nearest) (lo := (-25 / 4)) (hi := (25 / 4)) (h := by wit)
    (hs := by wit) (ha := ⟨by wit, by wit, by norm_num, by norm_num, by norm_num⟩) (hq := by wit) (h' := by wit) (hτ := by wit)

/-- C81, accumulating into a bf16 buffer, on any kernel (all element types and tails). -/
theorem C81_accumulate_bf16 (h : PArgs ft x n blocks dt) (hs : Sees isa ft x n blocks) (ha : Around ft x n lo hi)
    (hq : QArgs c.threads x ft.dtype dt n) (h' : Sizes n c'.threads) (hτ : Threshold mode τ) :
    ∃ s z, computeQuantConfigFromData isa ft x blocks dt = .ret (s, z) ∧
      Always NoFault (quantize c x ft.dtype o (bytes dt.bits n) dt s z mode τ) (span o (bytes dt.bits n)) m0 (fun m =>
        ∀ sz, bytes dt.bits n ≤ sz →
          Always NoFault (dequantize c' ⟨sz, fun a => m (o + a)⟩ (bytes dt.bits n) dt o' (2 * n) .bf16 s z .add) (span o' (2 * n)) m0' (fun m' =>
            ∀ i, i < n → (bf16At m0' (o' + 2 * i)).isFin = true → |(bf16At m0' (o' + 2 * i)).toRat| ≤ 2 ^ 120 →
              WithinSum16 (tol mode) dt lo hi (bf16At m0' (o' + 2 * i)).toRat (elem ft.dtype x.data 0 i).toRat (bf16At m' (o' + 2 * i)))) := by
  obtain ⟨s, z, he, hsf, h1, h2, hn, A, B, hc⟩ := computed_step h hs ha
  obtain ⟨b1, b2, hS⟩ := step_bounds h.quant ha
  obtain ⟨h3, h4⟩ := scale16 b1 b2 hn
  have hs0 : 0 < s.toRat := lt_of_lt_of_le (by positivity) h1
  refine ⟨s, z, he, (codes_near hc hq ha.fin h1 h2 hτ).mono (fun _ h => h) (fun m hm sz hsz => ?_)⟩
  have hQ := qmax_bounds h.quant
  have hzp := hc.zp
  have hzs : ZpSub z := by unfold ZpSub; norm_num; omega
  refine (C10_add_bf16 (c := c') ⟨h.quant, rfl, hsz, h'⟩ hzs (fun _ => by rw [abs_of_nonneg hzp.1]; norm_num; omega)).mono (fun _ h => h) (fun m' hm' i hi' hof hob => ?_)
  have e : code dt.bits (fun a => m (o + a)) 0 i = code dt.bits m o i := code_shift _ _ _ _
  obtain ⟨k1, k2⟩ := hm i hi'
  have g := hm' i hi'
  rw [show (InBuf.data ⟨sz, fun a => m (o + a)⟩) = fun a => m (o + a) from rfl, e] at g
  have hfit := fits16 (mode := mode) ha hi' b2 hob
  have hks0 : 0 ≤ |(((code dt.bits m o i : ℤ) - z : ℤ) : ℚ) * s.toRat| := abs_nonneg _
  have fin : ∀ t : F32, t.isFin = true → _ → (IsBf16Of t (u16At m' (o' + 2 * i)) ∨ (|t.toRat| < 1 / 2 ^ 126 ∧ u16At m' (o' + 2 * i) % 32768 = 0)) →
      WithinSum16 (tol mode) dt lo hi (bf16At m0' (o' + 2 * i)).toRat (elem ft.dtype x.data 0 i).toRat (bf16At m' (o' + 2 * i)) := fun t hf ht hw =>
    summed b1 hS ht hfit (storedAs_of hf (u16At_lt _ _) hw)
  rcases g with ⟨d, hd, hw⟩ | ⟨_, t, ht, hw⟩
  · obtain ⟨a1, a2⟩ := dequant_near k1 hsf h1 h2
    obtain ⟨v1, v2⟩ := word_near (w := d) k1 (le_trans (by norm_num) h3) (h4.trans (by norm_num)) a1 (a2.trans (by
      rw [div_le_div_iff₀ (by positivity) (by positivity)]; norm_num; linarith)) (isBf16_lt a1 hd) (Or.inl hd)
    have hv := decoded hs0 hS hn k2 (v2.trans (by
      set k : ℚ := (((code dt.bits m o i : ℤ) - z : ℤ) : ℚ)
      have e1 : |k * s.toRat| = |k| * s.toRat := by rw [abs_mul, abs_of_pos hs0]
      have e2 : s.toRat * (max |k| 1 / 2 ^ 8 + 1 / 2 ^ 14) = max |k| 1 * s.toRat / 2 ^ 8 + s.toRat / 2 ^ 14 := by ring
      have e3 : max |k| 1 * s.toRat ≤ |k| * s.toRat + s.toRat := by
        have : max |k| 1 ≤ |k| + 1 := max_le (by linarith) (by linarith [abs_nonneg k])
        calc max |k| 1 * s.toRat ≤ (|k| + 1) * s.toRat := mul_le_mul_of_nonneg_right this hs0.le
          _ = _ := by ring
      have e4 : 0 ≤ |k| * s.toRat := mul_nonneg (abs_nonneg _) hs0.le
      rw [e1, e2]
      linarith))
    obtain ⟨t1, t2⟩ := added hof v1 hv hfit
    exact fin _ t1 t2 (Or.inl hw)
  · have hw := hw.imp (fun h => h) (fun h => (⟨h.2.1, h.2.2⟩ : _ ∧ _))
    rcases ht with ⟨_, rfl⟩ | ⟨h8, rfl⟩
    · have a := sum_fits (mode := mode) ha hi' hS b2 hn hob
      obtain ⟨t1, t2⟩ := plus_near (b := c'.fuse.vec) k1 hsf h1 h2 k2 hof a
      have k := err_step (mode := mode) hS hn
      refine fin _ t1 (t2.trans ?_) hw
      set S := step dt lo hi
      have k5 : S * (tol mode + 1 / 2 ^ 12 + 1 / 2 ^ 22) ≤ S * (tol mode + 1 / 64) := mul_le_mul_of_nonneg_left (by norm_num; linarith) hS.le
      have x0 : 0 ≤ |(elem ft.dtype x.data 0 i).toRat| / 127 := by positivity
      have : s.toRat * (tol mode + 1 / 2 ^ 12) ≤ S * (tol mode + 1 / 64) + |(elem ft.dtype x.data 0 i).toRat| / 127 := by linarith
      have h24 : (|(bf16At m0' (o' + 2 * i)).toRat + (elem ft.dtype x.data 0 i).toRat| + s.toRat * (tol mode + 1 / 2 ^ 12)) / 2 ^ 24 ≤
          (|(bf16At m0' (o' + 2 * i)).toRat + (elem ft.dtype x.data 0 i).toRat| + (S * (tol mode + 1 / 64) + |(elem ft.dtype x.data 0 i).toRat| / 127)) / 2 ^ 24 :=
        div_le_div_of_nonneg_right (by linarith) (by positivity)
      linarith
    · have hQ4 : dt.bits ≤ 4 := by
        have := h.quant
        cases dt <;> simp [DType.isQuant, DType.bits] at *
      have hp : 2 ^ dt.bits ≤ 2 ^ 4 := Nat.pow_le_pow_right (by norm_num) hQ4
      have hp' : (2:ℤ) ^ dt.bits ≤ 16 := by exact_mod_cast hp
      have hcl := code_le (dt := dt) m o i
      obtain ⟨v1, v2⟩ := fmaDequant_near16 (q := code dt.bits m o i) (by norm_num at hp; omega) ⟨hzp.1, by omega⟩ hsf h1 h2
      have hv := decoded hs0 hS hn k2 (v2.trans (by linarith))
      obtain ⟨t1, t2⟩ := added hof v1 hv hfit
      have ec : Flt.add (fmaDequant s z (code dt.bits m o i)) (bf16At m0' (o' + 2 * i)) = Flt.add (bf16At m0' (o' + 2 * i)) (fmaDequant s z (code dt.bits m o i)) := Flt.add_comm _ _
      rw [ec] at hw
      exact fin _ t1 t2 hw

/-- `C81_accumulate_bf16` applied to a concrete case. -/
example := C81_accumulate_bf16 (isa := .avx512f) (ft := .bf16) (x := Ex.manyB) (n := 70) (blocks := Ex.blocks) (dt := .uint8) (c := Ex.c1)
    (c' := Ex.c2) (o := 1000) (o' := 3000) (m0 := Ex.old) (m0' := Ex.old) (τ := Ex.quarter) (mode := .nearest) (lo := (-25 / 4)) (hi := (25 / 4))
    (h := by wit) (hs := by wit) (ha := ⟨by wit, by wit, by norm_num, by norm_num, by norm_num⟩) (hq := by wit) (h' := by wit) (hτ := by wit)

/-- C81, fused: quantize-and-dequantize of a bf16 tensor in one call has the same guarantees, for both reduce operations. -/
theorem C81_fused_bf16 (h : PArgs .bf16 x n blocks dt) (hs : Sees isa .bf16 x n blocks) (ha : Around .bf16 x n lo hi)
    (hq : QArgs c.threads x .bf16 dt n) (hτ : Threshold mode τ)
    (hold : op = .add → ∀ i, i < n → (bf16At m0 (o + 2 * i)).isFin = true ∧ |(bf16At m0 (o + 2 * i)).toRat| ≤ 2 ^ 120) :
    ∃ s z, computeQuantConfigFromData isa .bf16 x blocks dt = .ret (s, z) ∧
      Always NoFault (fused c x .bf16 o (2 * n) dt s z mode op τ) (span o (2 * n)) m0 (fun m =>
        ∀ i, i < n → match (generalizing := false) op with
          | .set => Within16 (tol mode) dt lo hi (elem .bf16 x.data 0 i).toRat (bf16At m (o + 2 * i))
          | .add => WithinSum16 (tol mode) dt lo hi (bf16At m0 (o + 2 * i)).toRat (elem .bf16 x.data 0 i).toRat (bf16At m (o + 2 * i))) := by
  obtain ⟨s, z, he, hsf, h1, h2, hn, A, B, hc⟩ := computed_step h hs ha
  obtain ⟨b1, b2, hS⟩ := step_bounds h.quant ha
  obtain ⟨h3, h4⟩ := scale16 b1 b2 hn
  have hs0 : 0 < s.toRat := lt_of_lt_of_le (by positivity) h1
  have hQ := qmax_bounds h.quant
  have hzp := hc.zp
  refine ⟨s, z, he, (C81_fused_bf16_formula (op := op) hq (by rw [abs_of_nonneg hzp.1]; norm_num; omega) hsf (fun i hi => ?_)).mono (fun _ h => h) (fun m hm i hi' => ?_)⟩
  · obtain ⟨g1, _, g2⟩ := hc.scaled h.quant ha.fin h1 h2 hi
    exact defined_of g1 g2 ⟨hzp.1, by omega⟩ hτ
  have hw := hm i hi'
  have k3 := rt_core_mode (e := tol mode) hc.zp half_le_tol hc.off hc.len (hc.quo i hi') (hc.scaled h.quant ha.fin h1 h2 hi').2.1 (rounded_tol hτ _)
  rw [← bf16ToF32_spec m, hw]
  change |_ - (elem .bf16 x.data 0 i).toRat / _| ≤ _ at k3
  have h0 : 0 ≤ sat dt.bits (rounded mode τ.toRat (scaled (elem .bf16 x.data 0 i) s).toRat + z) := by unfold sat; omega
  have hcast := Int.toNat_of_nonneg h0
  have hle : sat dt.bits (rounded mode τ.toRat (scaled (elem .bf16 x.data 0 i) s).toRat + z) ≤ 255 := by unfold sat; omega
  change |((sat dt.bits (rounded mode τ.toRat (scaled (elem .bf16 x.data 0 i) s).toRat + z) - z : ℤ) : ℚ) - _| ≤ _ at k3
  rw [← hcast] at k3
  generalize (sat dt.bits (rounded mode τ.toRat (scaled (elem .bf16 x.data 0 i) s).toRat + z)).toNat = q at k3 hcast ⊢
  have k1 : |(q : ℤ) - z| ≤ 255 := by rw [abs_le]; omega
  obtain ⟨p1, p2⟩ := prod16_near k1 hsf h3 h4
  obtain ⟨d1, d2⟩ := dequantB_eq (scale := s) (zp := z) (q := q) hsf (k1.trans (by norm_num))
  have hv := decoded hs0 hS hn k3 (p2.trans (by linarith))
  cases op
  · show Within16 _ _ _ _ _ (bf16ToF32 (dequantB s z q).toBits)
    rw [← d2]
    exact ⟨p1, hv⟩
  · obtain ⟨hof, hob⟩ := hold rfl i hi'
    have hfit := fits16 (mode := mode) ha hi' b2 hob
    obtain ⟨t1, t2⟩ := added hof p1 hv hfit
    show WithinSum16 _ _ _ _ _ _ (bf16ToF32 (Flt.add (Flt.ofBits bf16 (u16At m0 (o + 2 * i))) (dequantB s z q)).toBits)
    rw [← d1, ← add_ieee (u16At_lt _ _) (by exact f32ToBf16_lt)]
    refine summed b1 hS t2 hfit (Or.inl (fun hb => ?_))
    rw [← bf16ToF32_spec m0] at t1 hb ⊢
    exact bf16_value t1 hb

/-- `C81_fused_bf16` applied to a concrete case. -/
example := C81_fused_bf16 (isa := .avx512f) (x := Ex.manyB) (n := 70) (blocks := Ex.blocks) (dt := .uint8) (c := Ex.c1) (o := 1000) (m0 := Ex.old)
    (τ := Ex.quarter) (mode := .nearest) (lo := (-25 / 4)) (hi := (25 / 4)) (op := .add) (h := by wit) (hs := by wit)
    (ha := ⟨by wit, by wit, by norm_num, by norm_num, by norm_num⟩) (hq := by wit) (hτ := by wit) (hold := by wit)

/-- Three bf16 values from -2.5 to 3, and an accumulator holding the same values. -/
example : PArgs .bf16 Ex.xb 3 [(0, 1), (1, 3)] .uint8 ∧ Sees .sse42 .bf16 Ex.xb 3 [(0, 1), (1, 3)] ∧ Around .bf16 Ex.xb 3 (-5 / 2) 3 ∧
    QArgs 2 Ex.xb .bf16 .uint8 3 ∧ Sizes 3 5 ∧ Threshold .nearest Ex.quarter ∧
    (ReduceOp.add = .add → ∀ i, i < 3 → (bf16At Ex.xb.data (0 + 2 * i)).isFin = true ∧ |(bf16At Ex.xb.data (0 + 2 * i)).toRat| ≤ 2 ^ 120) ∧
    (∀ i, i < 3 → Defined .stochastic Ex.quarter (scaled (elem .bf16 Ex.xb.data 0 i) Ex.tenth) 7) := by
  have hv : ∀ t, t < 3 → -5 / 2 ≤ (elem .bf16 Ex.xb.data 0 t).toRat ∧ (elem .bf16 Ex.xb.data 0 t).toRat ≤ 3 := by decide +kernel
  refine ⟨⟨rfl, by decide, rfl, by omega, rfl, by omega, rfl⟩, ?_, ⟨by unfold AllFin; decide +kernel, ⟨⟨⟨1, by norm_num, by decide +kernel⟩, ?_⟩, ⟨⟨2, by norm_num, by decide +kernel⟩, ?_⟩⟩, by norm_num, by norm_num, by norm_num⟩,
    ⟨rfl, rfl, rfl, by omega, by norm_num, by norm_num⟩, ⟨by omega, by norm_num, by norm_num⟩, (fun h => by cases h), (fun _ => by decide +kernel), ?_⟩
  · refine sees_small (dt := .uint8) ⟨rfl, by decide, rfl, by omega, rfl, by omega, rfl⟩ (by omega) ?_
    intro _ b hb
    simp only [List.mem_cons, List.not_mem_nil, or_false] at hb
    rcases hb with rfl | rfl <;> decide
  · rintro _ ⟨t, ht, rfl⟩; exact (hv t ht).1
  · rintro _ ⟨t, ht, rfl⟩; exact (hv t ht).2
  · unfold Defined; decide +kernel

end Verif.Props
