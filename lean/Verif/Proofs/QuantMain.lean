import Verif.Proofs.Calls
import Verif.Proofs.Stoch
import Verif.Proofs.Sched2

/-! # `quantize`: the whole call in specification terms -/

namespace Verif
open Spec Simd

/-! ## Element codes -/

theorem clampI_sat {dt : DType} (hdt : dt.isQuant = true) (z : ℤ) : (clampI dt.qmax z : ℤ) = sat dt.bits z := by
  unfold clampI sat
  cases dt <;> simp [DType.isQuant] at hdt <;> simp only [DType.qmax, DType.bits] <;> norm_num

theorem qmax_eq {dt : DType} (hdt : dt.isQuant = true) : dt.qmax = 2 ^ dt.bits - 1 := by
  cases dt <;> simp [DType.isQuant] at hdt <;> rfl

theorem qmax_le {dt : DType} : dt.qmax ≤ 255 := by cases dt <;> decide

theorem scaled_eq (v scale : F32) : scaled v scale = Flt.mul v (invScale scale) := rfl

theorem fits_mono {p : F32} {zp : ℤ} (h : Fits 32 p zp) : Fits 64 p zp := by
  obtain ⟨h1, ⟨h2, h3⟩, h4, h5⟩ := h
  norm_num at h2 h3 h4 h5
  exact ⟨h1, ⟨by norm_num; omega, by norm_num; omega⟩, by norm_num; omega, by norm_num; omega⟩

/-- The scalar step, under the definedness condition. -/
theorem scalarStep_defined {ft : FT} {dt : DType} {mode : RoundMode} {scale τ : F32} {zp : ℤ} {v : F32} (hdt : dt.isQuant = true)
    (hz : Zp32 zp) (hd : Defined mode τ (scaled v scale) zp) :
    scalarStep ft dt mode scale τ zp v = .ret (clampI dt.qmax (rounded mode τ.toRat (scaled v scale).toRat + zp)) := by
  rw [scaled_eq] at *
  unfold scalarStep
  cases mode
  · have hd : Fits 32 (Flt.mul v (invScale scale)) zp := hd
    have h64 := fits_mono hd
    have hw : wrap32 zp = zp := wrap32_of hz
    have e32 : qNearest32 dt.qmax v (invScale scale) (wrap32 zp) = .ret (clampI dt.qmax (rha (Flt.mul v (invScale scale)).toRat + zp)) := by
      rw [hw]; exact qNearest32_ret.mpr ⟨hd, rfl⟩
    have e64 : qNearest64 dt.qmax v (invScale scale) zp = .ret (clampI dt.qmax (rha (Flt.mul v (invScale scale)).toRat + zp)) :=
      qNearest64_ret.mpr ⟨h64, rfl⟩
    cases ft <;> cases dt <;> simp only [DType.isQuant, Bool.false_eq_true] at hdt
    · exact e64
    all_goals exact e32
  · obtain ⟨h1, h2, h3, h4⟩ := (show (Flt.mul v (invScale scale)).isFin = true ∧ |(Flt.mul v (invScale scale)).toRat| ≤ 2 ^ 62 ∧
      τ.isFin = true ∧ 0 ≤ τ.toRat from hd)
    exact qStoch64_eq h1 h3 h4 h2 hz

/-- An element whose scaled value is finite shows that the reciprocal of the scale is finite. -/
theorem mul_fin_right {f : Fmt} {a b : Flt f} (h : (Flt.mul a b).isFin = true) : a.isFin = true ∧ b.isFin = true := by
  have hn : (Flt.nan : Flt f).isFin = false := by simp [Flt.nan, Flt.isFin]
  have hi : ∀ s, (Flt.inf s : Flt f).isFin = false := by intro s; simp [Flt.inf, Flt.isFin]
  unfold Flt.mul at h
  split at h
  · rw [hn] at h; cases h
  · rename_i h1
    split at h
    · split at h
      · rw [hn] at h; cases h
      · rw [hi] at h; cases h
    · rename_i h2
      simp only [Bool.or_eq_true, not_or, Flt.isNaN, Flt.isInf, decide_eq_true_eq] at h1 h2
      simp only [Flt.isFin, decide_eq_true_eq]
      omega

theorem mul_f0 {b : F32} (h : b.isFin = true) : Flt.mul f0 b = ⟨b.neg, 0⟩ := by
  obtain ⟨h1, h2⟩ := isFin_not_nan h
  unfold Flt.mul
  rw [h1, h2]
  have e1 : (Flt.isNaN f0) = false := by decide
  have e2 : (Flt.isInf f0) = false := by decide
  have e3 : f0.neg = false := rfl
  have e4 : f0.absRat = 0 := by decide +kernel
  have e5 : Flt.roundAbs f32 0 = 0 := by decide +kernel
  rw [e1, e2, e3, e4, zero_mul, e5]
  simp

theorem scaled_f0_defined {mode : RoundMode} {scale τ : F32} {zp : ℤ} {v : F32} (hz : Zp32 zp)
    (hd : Defined mode τ (scaled v scale) zp) : Defined mode τ (scaled f0 scale) zp := by
  have hfin : (scaled v scale).isFin = true := by cases mode <;> exact hd.1
  have hinv := (mul_fin_right (a := v) (b := invScale scale) hfin).2
  have he : scaled f0 scale = ⟨(invScale scale).neg, 0⟩ := mul_f0 hinv
  have hz0 : ∀ s, (⟨s, 0⟩ : F32).isFin = true ∧ (⟨s, 0⟩ : F32).toRat = 0 := by decide +kernel
  obtain ⟨h1, h2⟩ := hz0 (invScale scale).neg
  have hr : rha 0 = 0 := by decide +kernel
  unfold Zp32 at hz
  rw [he]
  cases mode
  · refine ⟨h1, ?_, ?_⟩
    · rw [h2, hr]; norm_num
    · rw [h2, hr]; norm_num; norm_num at hz; omega
  · exact ⟨h1, by rw [h2]; norm_num, hd.2.2⟩

/-- The x86 vector code at the float just below one half. -/
theorem vcode_predHalf {qmax : Nat} {v inv : F32} {zp : ℤ} (hs : Fits 32 (Flt.mul v inv) zp)
    (he : |(Flt.mul v inv).toRat| = predHalf) (hz : -(2 ^ 31 : ℤ) < zp ∧ zp + 1 < 2 ^ 31) :
    vcode qmax inv zp v = clampI qmax ((if (Flt.mul v inv).toRat < 0 then -1 else 1) + zp) := by
  unfold vcode
  simp only
  change clampI qmax (wrap32 (cvttps1 (vsum (Flt.mul v inv)) + zp)) = _
  generalize Flt.mul v inv = p at *
  rw [toRat_abs] at he
  have e1 : fl f32 (predHalf + 1/2) = 1 := by decide +kernel
  have e : cvttps1 (vsum p) = if p.toRat < 0 then -1 else 1 := by
    rw [cvttps1_vsum hs.1 (by rw [he, e1]; norm_num), he, e1]
    unfold sgn; simp
  rw [e, wrap32_of]
  split <;> constructor <;> norm_num <;> norm_num at hz <;> omega

theorem elemCode_val {isa : Isa} {ft : FT} {dt : DType} {mode : RoundMode} {scale τ : F32} {zp : ℤ} {v : F32} {q : Nat}
    (hdt : dt.isQuant = true) (hz : Zp32 zp) (hd : Defined mode τ (scaled v scale) zp)
    (hx : ExactKernel isa ft.dtype dt mode ∨ |zp| ≤ 2 ^ 22)
    (h : ElemCode isa ft dt mode scale τ zp v q) :
    (q : ℤ) = sat dt.bits (rounded mode τ.toRat (scaled v scale).toRat + zp) ∨
      (¬ ExactKernel isa ft.dtype dt mode ∧ |(scaled v scale).toRat| = predHalf ∧
        (q : ℤ) = sat dt.bits ((if (scaled v scale).toRat < 0 then -1 else 1) + zp)) := by
  rcases h with h | ⟨hm, hft, ⟨h1, h2, h3⟩ | ⟨h1, h2, h3, h4⟩⟩
  · rw [scalarStep_defined hdt hz hd] at h
    injection h with h
    left; rw [← h, clampI_sat hdt]
  · subst hm
    have hd : Fits 32 (Flt.mul v (invScale scale)) zp := hd
    rw [wrap32_of hz] at h3
    have hex : ¬ ExactKernel isa ft.dtype dt .nearest := by
      unfold ExactKernel
      rintro (h | h | h | h)
      · exact h1 h
      · exact h2 h
      · cases h
      · apply hft
        refine ⟨?_, h.2⟩
        cases ft
        · rfl
        · simp [FT.dtype] at h
    have hx := hx.resolve_left hex
    by_cases hp : |(scaled v scale).toRat| = predHalf
    · right
      refine ⟨hex, hp, ?_⟩
      have := abs_le.mp hx
      norm_num at this
      rw [h3, vcode_predHalf hd hp (by constructor <;> norm_num <;> omega), clampI_sat hdt]
      rfl
    · left
      rw [h3, vcode_eq qmax_le hd hp (Or.inr (Or.inr hx)), clampI_sat hdt]; rfl
  · subst hm h2 h3
    have hd : Fits 32 (Flt.mul v (invScale scale)) zp := hd
    rw [wrap32_of hz] at h4
    left; rw [h4, ncode_eq hd]
    exact clampI_sat hdt _

/-! ## The whole call -/

section
variable {E : Fault → Prop} {c : Ctx} {x : InBuf} {dtIn dtOut : DType} {n o : Nat} {scale τ : F32} {zp : ℤ} {mode : RoundMode} {m0 : Mem}

theorem quantize_sched (hE : ¬ E .oobRead ∧ ¬ E .oobWrite) {ft : FT} {dt : DType} (hdt : dt.isQuant = true) (hx : x.size = ft.size * n)
    (hsz : Sizes n c.threads)
    (hs : ∀ i, i < n → StepOk E (scalarStep ft dt mode scale τ zp (x.elem ft 0 i)))
    (hs0 : n % dt.per ≠ 0 → StepOk E (scalarStep ft dt mode scale τ zp f0)) :
    AllSchedules E (span o (bytes dt.bits n)) (jobs c.isa c.threads x o ⟨.quant, n, scale, zp, ft.dtype, dt, mode, .set, τ, c.fuse⟩) m0
      (fun m => (∀ i, i < n → ElemCode c.isa ft dt mode scale τ zp (elem ft.dtype x.data 0 i) (code dt.bits m o i)) ∧
        (∀ t, dt.bits * n ≤ t → t < 8 * bytes dt.bits n → bit m o t = 0) ∧
        (∀ j, j < bytes dt.bits n → m (o + j) < 256) ∧
        (∀ a, (a < o ∨ o + bytes dt.bits n ≤ a) → m a = m0 a) ∧
        runSeq (span o (bytes dt.bits n)) (jobs c.isa c.threads x o ⟨.quant, n, scale, zp, ft.dtype, dt, mode, .set, τ, c.fuse⟩) m0 = .ok m) := by
  have hw := quantize_worker (E := E) (fz := c.fuse) (isa := c.isa) (x := x) (o := o) (m0 := m0) (op := .set) hdt (le_of_eq hx.symm) hs hs0
  have := call_main (E := E) (tc := c.threads) hE (legal_quant hdt) hsz.pos hsz.split hsz.addr local_byte hw.at
  refine ⟨this.safe, this.raceFree, this.progress, this.bounded, fun k d hr hd => ?_⟩
  obtain ⟨h1, h2, h3⟩ := this.post k d hr hd
  have hb : (Desc.outBits ⟨.quant, n, scale, zp, ft.dtype, dt, mode, .set, τ, c.fuse⟩) = dt.bits := by simp [Desc.outBits]
  simp only [hb] at h1 h2 h3
  obtain ⟨g1, g2, g3⟩ := okPack_spec hdt h1
  refine ⟨fun i hi => ?_, g2, g3, h2, h3⟩
  have := g1 i hi
  rw [elem_spec] at this
  exact this

/-- The result of a quantize call in terms of `ElemCode`. -/
def QRes (c : Ctx) (x : InBuf) (dtIn dtOut : DType) (n o : Nat) (scale τ : F32) (zp : ℤ) (mode : RoundMode) (m0 m : Mem) : Prop :=
  (∀ i, i < n → ∃ ft : FT, dtIn = ft.dtype ∧ ElemCode c.isa ft dtOut mode scale τ zp (elem dtIn x.data 0 i) (code dtOut.bits m o i)) ∧
    (∀ t, dtOut.bits * n ≤ t → t < 8 * bytes dtOut.bits n → bit m o t = 0) ∧
    (∀ j, j < bytes dtOut.bits n → m (o + j) < 256) ∧
    (∀ a, (a < o ∨ o + bytes dtOut.bits n ≤ a) → m a = m0 a)

theorem onlyUb_oob : ¬ OnlyUb .oobRead ∧ ¬ OnlyUb .oobWrite := by simp [OnlyUb]
theorem noFault_oob : ¬ NoFault .oobRead ∧ ¬ NoFault .oobWrite := by simp [NoFault]

/-- Any inputs: the only possible fault is undefined scalar arithmetic. -/
theorem quantize_ub (h : QArgs c.threads x dtIn dtOut n) (m0 : Mem) :
    ∃ js, quantize c x dtIn o (bytes dtOut.bits n) dtOut scale zp mode τ = .ok js ∧ (∀ p ∈ js, NoRd p) ∧
      AllSchedules OnlyUb (span o (bytes dtOut.bits n)) js m0 (fun m => QRes c x dtIn dtOut n o scale τ zp mode m0 m ∧
        runSeq (span o (bytes dtOut.bits n)) js m0 = .ok m) := by
  obtain ⟨ft, rfl, hst⟩ := ft_of h.inFloat
  have hx : x.size = ft.size * n := by rw [← hst]; exact h.size
  refine ⟨_, quantize_jobs h.outQuant h.sizes.addr hx, NoRd.jobs (Or.inl rfl), ?_⟩
  have := quantize_sched (E := OnlyUb) (c := c) (o := o) (m0 := m0) (scale := scale) (τ := τ) (zp := zp) (mode := mode) onlyUb_oob h.outQuant hx h.sizes
    (fun i _ => scalarStep_ok (E := OnlyUb) rfl _) (fun _ => scalarStep_ok (E := OnlyUb) rfl _)
  refine ⟨this.safe, this.raceFree, this.progress, this.bounded, fun k d hr hd => ?_⟩
  obtain ⟨h1, h2, h3, h4, h5⟩ := this.post k d hr hd
  exact ⟨⟨fun i hi => ⟨ft, rfl, h1 i hi⟩, h2, h3, h4⟩, h5⟩

/-- Inputs on which the scalar arithmetic is defined: no fault at all. -/
theorem quantize_safe (h : QArgs c.threads x dtIn dtOut n) (hz : Zp32 zp)
    (hd : ∀ i, i < n → Defined mode τ (scaled (elem dtIn x.data 0 i) scale) zp) (m0 : Mem) :
    ∃ js, quantize c x dtIn o (bytes dtOut.bits n) dtOut scale zp mode τ = .ok js ∧ (∀ p ∈ js, NoRd p) ∧
      AllSchedules NoFault (span o (bytes dtOut.bits n)) js m0 (fun m => QRes c x dtIn dtOut n o scale τ zp mode m0 m ∧
        runSeq (span o (bytes dtOut.bits n)) js m0 = .ok m) := by
  obtain ⟨ft, rfl, hst⟩ := ft_of h.inFloat
  have hx : x.size = ft.size * n := by rw [← hst]; exact h.size
  refine ⟨_, quantize_jobs h.outQuant h.sizes.addr hx, NoRd.jobs (Or.inl rfl), ?_⟩
  have := quantize_sched (E := NoFault) (c := c) (o := o) (m0 := m0) (scale := scale) (τ := τ) (zp := zp) (mode := mode) noFault_oob h.outQuant hx h.sizes
    (fun i hi => Or.inl ⟨_, by rw [elem_spec]; exact scalarStep_defined h.outQuant hz (hd i hi)⟩)
    (fun hn => by
      have h0 : 0 < n := by
        rcases Nat.eq_zero_or_pos n with h0 | h0
        · subst h0; simp at hn
        · exact h0
      exact Or.inl ⟨_, scalarStep_defined h.outQuant hz (scaled_f0_defined hz (hd 0 h0))⟩)
  refine ⟨this.safe, this.raceFree, this.progress, this.bounded, fun k d hr hd => ?_⟩
  obtain ⟨h1, h2, h3, h4, h5⟩ := this.post k d hr hd
  exact ⟨⟨fun i hi => ⟨ft, rfl, h1 i hi⟩, h2, h3, h4⟩, h5⟩

theorem Spec.Always.mono {E E' : Fault → Prop} {call : Except Fault (List (Prog Unit))} {w : Win} {Q Q' : Mem → Prop}
    (h : Always E call w m0 Q) (hE : ∀ f, E f → E' f) (hQ : ∀ m, Q m → Q' m) : Always E' call w m0 Q' := by
  obtain ⟨js, h1, h2⟩ := h
  exact ⟨js, h1, fun k d hr ⟨p, hp, hf⟩ => h2.safe k d hr ⟨p, hp, hf.imp (fun ⟨f, e, hn⟩ => ⟨f, e, fun he => hn (hE _ he)⟩) (fun h => h)⟩,
    h2.raceFree, h2.progress, h2.bounded, fun k d hr hd => hQ _ (h2.post k d hr hd)⟩

end
end Verif
