import Verif.Proofs.Vectored
import Verif.SpecExact
import Verif.Proofs.DequantMain
import Verif.Props.PipelineBf16

/-!
# The generic 64-bit arithmetic, exactly (C118)
-/

namespace Verif
open Spec Simd

theorem trunc_not_fin {p : F32} (h : p.isFin = false) : (Flt.trunc p).isFin = false := by
  unfold Flt.trunc
  rw [if_neg (by rw [h]; decide)]
  exact h

theorem stochAdj_not_fin {x τ inv : F32} (h : (Flt.mul x inv).isFin = false) : (stochAdj x τ inv).isFin = false := by
  have f1' : (Flt.mul fm1 f1).isFin = true := by decide +kernel
  have f0' : (Flt.mul fm1 f0).isFin = true := by decide +kernel
  have g1 : f1.isFin = true := by decide +kernel
  have g0 : f0.isFin = true := by decide +kernel
  unfold stochAdj
  dsimp only
  refine add_not_fin (trunc_not_fin h) ?_
  by_cases h1 : Flt.lt τ (Flt.abs (Flt.sub (Flt.mul x inv) (Flt.trunc (Flt.mul x inv)))) = true <;>
    by_cases h2 : Flt.lt (Flt.mul x inv) f0 = true
  · rw [if_pos h1, if_pos h2]; exact f1'
  · rw [if_pos h1, if_neg h2]; exact g1
  · rw [if_neg h1, if_pos h2]; exact f0'
  · rw [if_neg h1, if_neg h2]; exact g0

theorem qStoch64_ret {qmax : Nat} {x τ inv : F32} {zp : ℤ} {q : Nat} (hτ : τ.isFin = true) (hτ0 : 0 ≤ τ.toRat) :
    qStoch64 qmax x τ inv zp = .ret q ↔ Ok64 .stochastic τ (Flt.mul x inv) zp ∧ q = clampI qmax (sround τ.toRat (Flt.mul x inv).toRat + zp) := by
  unfold qStoch64
  by_cases hp : (Flt.mul x inv).isFin = true
  · obtain ⟨h1, h2⟩ := stochAdj_eq hp hτ hτ0
    generalize hs : sround τ.toRat (Flt.mul x inv).toRat = s at *
    have e : Ok64 .stochastic τ (Flt.mul x inv) zp ↔ IsI64 s ∧ IsI64 (s + zp) := by
      unfold Ok64 rounded; simp only [hs, hp, true_and]
    rw [e]
    unfold toIntAdd
    rw [toInt?_fin h1, truncInt_int h2]
    have ia : (-2 ^ (64 - 1) ≤ s ∧ s < 2 ^ (64 - 1)) ↔ IsI64 s := Iff.rfl
    have ib : (-2 ^ (64 - 1) ≤ s + zp ∧ s + zp < 2 ^ (64 - 1)) ↔ IsI64 (s + zp) := Iff.rfl
    by_cases a : IsI64 s
    · rw [if_pos (ia.mpr a)]
      simp only
      by_cases b : IsI64 (s + zp)
      · rw [if_pos (ib.mpr b)]
        constructor
        · intro h; injection h with h; exact ⟨⟨a, b⟩, h.symm⟩
        · rintro ⟨_, rfl⟩; rfl
      · rw [if_neg (fun h => b (ib.mp h))]
        constructor
        · intro h; cases h
        · rintro ⟨⟨_, h⟩, _⟩; exact absurd h b
    · rw [if_neg (fun h => a (ia.mp h))]
      constructor
      · intro h; cases h
      · rintro ⟨⟨h, _⟩, _⟩; exact absurd h a
  · have hp' : (Flt.mul x inv).isFin = false := by simpa using hp
    have h1 := stochAdj_not_fin (τ := τ) hp'
    unfold toIntAdd Flt.toInt?
    rw [if_neg (by rw [h1]; decide)]
    constructor
    · intro h; cases h
    · rintro ⟨⟨h, _⟩, _⟩; exact absurd h hp

theorem sat_iff {dt : DType} (hdt : dt.isQuant = true) {q : Nat} {z : ℤ} : q = clampI dt.qmax z ↔ (q : ℤ) = sat dt.bits z := by
  rw [← clampI_sat hdt]; exact ⟨fun h => by rw [h], fun h => by exact_mod_cast h⟩

theorem qStep_ret {dt : DType} (hdt : dt.isQuant = true) {mode : RoundMode} {v τ scale : F32} {zp : ℤ} {q : Nat}
    (hτ : mode = .stochastic → τ.isFin = true ∧ 0 ≤ τ.toRat) :
    qStep mode dt.qmax v τ (invScale scale) zp = .ret q ↔
      Ok64 mode τ (scaled v scale) zp ∧ (q : ℤ) = code64 mode dt.bits τ (scaled v scale) zp := by
  unfold code64
  cases mode
  · show qNearest64 _ _ _ _ = _ ↔ _
    rw [qNearest64_ret, sat_iff hdt]
    unfold Ok64 IsI64
    constructor
    · rintro ⟨⟨a, b, c⟩, e⟩; exact ⟨⟨a, by norm_num at b ⊢; exact b, by norm_num at c ⊢; exact c⟩, e⟩
    · rintro ⟨⟨a, b, c⟩, e⟩; exact ⟨⟨a, by norm_num at b ⊢; exact b, by norm_num at c ⊢; exact c⟩, e⟩
  · show qStoch64 _ _ _ _ _ = _ ↔ _
    rw [qStoch64_ret (hτ rfl).1 (hτ rfl).2, sat_iff hdt]
    rfl

/-- Stochastic rounding of the padding value zero. -/
theorem pad_stoch {ft : FT} {dt : DType} {v scale τ : F32} {zp : ℤ}
    (h : Ok64 .stochastic τ (scaled v scale) zp) (hz : IsI64 zp) (hτ : τ.isFin = true ∧ 0 ≤ τ.toRat) :
    ∃ q, scalarStep ft dt .stochastic scale τ zp f0 = .ret q := by
  have hinv := (mul_fin_right (a := v) (b := invScale scale) h.1).2
  have he : scaled f0 scale = ⟨(invScale scale).neg, 0⟩ := mul_f0 hinv
  have hz0 : ∀ s, (⟨s, 0⟩ : F32).isFin = true ∧ (⟨s, 0⟩ : F32).toRat = 0 := by decide +kernel
  obtain ⟨h1, hr0⟩ := hz0 (invScale scale).neg
  have hs : sround τ.toRat 0 = 0 := by
    have : rtz 0 = 0 := by decide +kernel
    unfold sround
    rw [this, Int.cast_zero, sub_zero, abs_zero, if_neg (by linarith [hτ.2])]
  refine ⟨clampI dt.qmax (sround τ.toRat (scaled f0 scale).toRat + zp), (qStoch64_ret hτ.1 hτ.2).mpr ⟨?_, rfl⟩⟩
  show Ok64 .stochastic τ (scaled f0 scale) zp
  rw [he]
  unfold Ok64 rounded
  simp only [hr0, hs, zero_add]
  exact ⟨h1, by decide, hz⟩

section
variable {E : Fault → Prop} {c : Ctx} {x : InBuf} {dtIn dtOut : DType} {n o : Nat} {scale τ : F32} {zp : ℤ} {m0 : Mem}

theorem stochastic_sched (hE : ¬ E .oobRead ∧ ¬ E .oobWrite) {ft : FT} {dt : DType} (hdt : dt.isQuant = true) (hx : x.size = ft.size * n)
    (hsz : Sizes n c.threads)
    (hs : ∀ i, i < n → StepOk E (scalarStep ft dt .stochastic scale τ zp (x.elem ft 0 i)))
    (hs0 : n % dt.per ≠ 0 → StepOk E (scalarStep ft dt .stochastic scale τ zp f0)) :
    AllSchedules E (span o (bytes dt.bits n)) (jobs c.isa c.threads x o ⟨.quant, n, scale, zp, ft.dtype, dt, .stochastic, .set, τ, c.fuse⟩) m0
      (fun m => (∀ i, i < n → qStep .stochastic dt.qmax (elem ft.dtype x.data 0 i) τ (invScale scale) zp = .ret (code dt.bits m o i)) ∧
        (∀ t, dt.bits * n ≤ t → t < 8 * bytes dt.bits n → bit m o t = 0) ∧
        (∀ a, (a < o ∨ o + bytes dt.bits n ≤ a) → m a = m0 a)) := by
  have hw := quantize_workerAt (E := E) (fz := c.fuse) (isa := c.isa) (x := x) (o := o) (m0 := m0) (op := .set) (mode := .stochastic) (T := c.threads) hdt (le_of_eq hx.symm)
    (fun i hi _ => hs i hi) (fun h _ => hs0 h)
  have := call_main (E := E) (tc := c.threads) hE (legal_quant hdt) hsz.pos hsz.split hsz.addr local_byte hw
  refine ⟨this.safe, this.raceFree, this.progress, this.bounded, fun k d hr hd => ?_⟩
  obtain ⟨h1, h2, h3⟩ := this.post k d hr hd
  have hb : (Desc.outBits ⟨.quant, n, scale, zp, ft.dtype, dt, .stochastic, .set, τ, c.fuse⟩) = dt.bits := by simp [Desc.outBits]
  simp only [hb] at h1 h2 h3
  obtain ⟨g1, g2, g3⟩ := okPack_spec hdt h1
  refine ⟨fun i hi => ?_, g2, h2⟩
  have := g1 i hi
  rw [elem_spec] at this
  rcases this with ⟨h, _⟩ | ⟨h, _⟩ | ⟨_, h⟩
  · cases h
  · cases h
  · exact h

/-! ## The stored bf16 word of the fused call -/

theorem scale_not_nan (h : (invScale scale).isFin = true) : scale.isNaN = false := by
  by_contra hn
  have hn : scale.isNaN = true := by simpa using hn
  have : invScale scale = Flt.nan := by unfold invScale Flt.div; rw [hn]; simp
  rw [this] at h
  revert h; decide +kernel

theorem cvt_word' {v : F32} (hn : v.isNaN = false) : Flt.ofBits bf16 (f32ToBf16 v) = Flt.cvt bf16 v := by
  have hm : v.mag ≤ f32.infMag := by simpa [Flt.isNaN] using hn
  have hv : v.Valid := by cases v; exact valid_of_le hm
  rw [f32ToBf16_cvt hv hn]
  apply Props.ofBits_toBits_bf16
  unfold Flt.cvt
  rw [hn, if_neg (by simp)]
  split
  · show bf16.infMag < 32768; decide
  · exact lt_of_le_of_lt (Props.roundAbs16 _) (by norm_num)

theorem ofInt_not_nan (k : ℤ) : (Flt.ofInt f32 k).isNaN = false := by
  have := roundAbs_valid (f := f32) |(k:ℚ)|
  unfold Flt.ofInt Flt.ofRat Flt.isNaN
  split
  · rfl
  · simp only [decide_eq_false_iff_not, not_lt]
    exact this

/-- The word of the fused call on a bf16 tensor is `Spec.storeB`, for every scale but NaN. -/
theorem storeB_eq {op : ReduceOp} {old q : Nat} (ho : old < 65536) (hs : scale.isNaN = false) :
    opW op old (bf16Mul (f32ToBf16 (Flt.ofInt f32 (q - zp))) (f32ToBf16 scale)) = storeB op old scale zp q := by
  have e1 := (Props.C65_bf16_arithmetic_is_ieee (a := f32ToBf16 (Flt.ofInt f32 ((q:ℤ) - zp))) (b := f32ToBf16 scale) f32ToBf16_lt f32ToBf16_lt).2.2.1
  have e2 := Props.mul_ieee (a := f32ToBf16 (Flt.ofInt f32 ((q:ℤ) - zp))) (b := f32ToBf16 scale) f32ToBf16_lt f32ToBf16_lt
  rw [cvt_word' hs, cvt_word' (ofInt_not_nan _)] at e1 e2
  cases op
  · exact e2
  · show bf16Add _ _ = (Flt.add _ _).toBits
    rw [Props.add_ieee ho (by exact f32ToBf16_lt), e1]
    rfl

/-- What a finished fused call did to every element, with the subtraction in range. -/
theorem fusedExact_sched {ft : FT} {dt : DType} {mode : RoundMode} {op : ReduceOp} (hE : ¬ E .oobRead ∧ ¬ E .oobWrite) (hdt : dt.isQuant = true)
    (hx : x.size = ft.size * n) (hsz : Sizes n c.threads) (hτ : mode = .stochastic → τ.isFin = true ∧ 0 ≤ τ.toRat)
    (hs : ∀ i, i < n → E .ub ∨ FusedOk mode dt.bits τ (scaled (elem ft.dtype x.data 0 i) scale) zp) :
    AllSchedules E (span o (ft.size * n)) (jobs c.isa c.threads x o ⟨.quantDequant, n, scale, zp, ft.dtype, dt, mode, op, τ, c.fuse⟩) m0
      (fun m => (∀ i, i < n → FusedOk mode dt.bits τ (scaled (elem ft.dtype x.data 0 i) scale) zp ∧
          (match ft with
            | .f32 => f32At m (o + 4 * i) = store op c.fuse.gen (f32At m0 (o + 4 * i)) scale zp
                (code64 mode dt.bits τ (scaled (elem .f32 x.data 0 i) scale) zp).toNat
            | .bf16 => u16At m (o + 2 * i) = storeB op (u16At m0 (o + 2 * i)) scale zp
                (code64 mode dt.bits τ (scaled (elem .bf16 x.data 0 i) scale) zp).toNat)) ∧
        (∀ a, (a < o ∨ o + ft.size * n ≤ a) → m a = m0 a)) := by
  have hr (i : Nat) (q : Nat) := qStep_ret (mode := mode) (dt := dt) (v := elem ft.dtype x.data 0 i) (τ := τ) (scale := scale) (zp := zp) (q := q) hdt hτ
  have hqc : ∀ p, 0 ≤ code64 mode dt.bits τ p zp := fun p => le_max_left _ _
  have hw := fused_workerAt (E := E) (fz := c.fuse) (isa := c.isa) (x := x) (o := o) (m0 := m0) (op := op) (scale := scale) (zp := zp) (τ := τ) (mode := mode)
    hdt (le_of_eq hx.symm) (fun i hi => by
      rw [elem_spec]
      rcases hs i hi with h | h
      · exact Props.qStep_ok h
      · exact Or.inl ⟨_, (hr i (code64 mode dt.bits τ (scaled (elem ft.dtype x.data 0 i) scale) zp).toNat).mpr ⟨h.1, Int.toNat_of_nonneg (hqc _)⟩⟩)
    (fun i hi q hq => by
      rw [elem_spec] at hq
      rcases hs i hi with h | h
      · exact Or.inl h
      · right; rw [((hr i q).mp hq).2]; exact h.2)
  have hb : (Desc.outBits ⟨.quantDequant, n, scale, zp, ft.dtype, dt, mode, op, τ, c.fuse⟩) = ft.dtype.bits := by simp [Desc.outBits]
  have := call_main (E := E) (tc := c.threads) hE (legal_fused hdt) hsz.pos hsz.split hsz.addr (by rw [hb]; exact local_elem) hw.at
  simp only [hb, outBytes_ft] at this
  refine ⟨this.safe, this.raceFree, this.progress, this.bounded, fun k d hr' hd => ?_⟩
  obtain ⟨h1, h2, h3⟩ := this.post k d hr' hd
  refine ⟨fun i hi => ?_, h2⟩
  obtain ⟨v, g1, g2⟩ := okElem_at (ft_size_pos ft) h1 hi
  rw [elem_spec] at g1
  have hsub : ∃ q : Nat, qStep mode dt.qmax (elem ft.dtype x.data 0 i) τ (invScale scale) zp = .ret q ∧ IsI64 ((q:ℤ) - zp) := by
    obtain ⟨q, hq, g⟩ := g1
    refine ⟨q, hq, ?_⟩
    cases ft
    · obtain ⟨d, hd, _⟩ := g
      unfold dqStepF32 subI at hd
      split at hd
      · rename_i h; exact h
      · cases hd
    · obtain ⟨d, hd, _⟩ := g
      unfold dqStepBf16 subI at hd
      split at hd
      · rename_i h; exact h
      · cases hd
  obtain ⟨q, hq, hI⟩ := hsub
  obtain ⟨hok, hqv⟩ := (hr i q).mp hq
  have hq' : q = (code64 mode dt.bits τ (scaled (elem ft.dtype x.data 0 i) scale) zp).toNat := by rw [← hqv]; rfl
  refine ⟨⟨hok, by rw [← hqv]; exact hI⟩, ?_⟩
  obtain ⟨q', hqq, g⟩ := fusedElem_out g1 g2
  rw [hq] at hqq
  injection hqq with hqq
  subst hqq
  cases ft
  · simp only at g ⊢
    rw [g, opF_spec, hq']
    rfl
  · simp only at g ⊢
    rw [g, storeB_eq (Props.u16At_lt _ _) (scale_not_nan (mul_fin_right hok.1).2), hq']
    rfl

end
end Verif
