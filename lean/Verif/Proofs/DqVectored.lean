import Verif.Proofs.Vectored
import Verif.Proofs.DequantMain
import Verif.Proofs.DqVal

/-! # `dequantize` with the position of every element: proofs for C117 -/

namespace Verif
open Spec Simd

section
variable {E : Fault → Prop} {isa : Isa} {x : InBuf} {o n : Nat} {m0 : Mem} {ft : FT} {dt : DType} {fz : Fuse} {mode : RoundMode}
  {scale τ : F32} {zp : ℤ} {op : ReduceOp}

theorem dqElemAt_shift {g g' : Prop} (hg : g ↔ g') {b e i q v : Nat} (hbn : dt = .uint2 → 4 ∣ b ∧ (e = n ∨ 4 ∣ e)) (hbe : b < e) (hen : e ≤ n) (hi : i < e - b)
    (h : DqElemAt isa fz dt ft op scale zp m0 (o + ft.size * b) (e - b) g i q v) : DqElemAt isa fz dt ft op scale zp m0 o n g' (b + i) q v := by
  obtain rfl : g = g' := propext hg
  cases ft
  · have e1 : o + FT.f32.size * b + 4 * i = o + 4 * (b + i) := by simp only [FT.size]; omega
    have e2 : (dt = .uint2 ∧ (e - b) / 4 * 4 ≤ i) ↔ (dt = .uint2 ∧ n / 4 * 4 ≤ b + i) := by
      constructor
      · rintro ⟨h1, h2⟩
        obtain ⟨h3, h4⟩ := hbn h1
        exact ⟨h1, by omega⟩
      · rintro ⟨h1, h2⟩
        obtain ⟨h3, h4⟩ := hbn h1
        exact ⟨h1, by omega⟩
    unfold DqElemAt at h ⊢
    simp only [e1, if_congr e2 rfl rfl] at h
    exact h
  · have e1 : o + FT.bf16.size * b + 2 * i = o + 2 * (b + i) := by simp only [FT.size]; omega
    unfold DqElemAt at h ⊢
    simp only [e1] at h
    exact h

theorem packedDq_eq (hdt : dt.isQuant = true) {d : DType} :
    packElems (packedBits ⟨.dequant, n, scale, zp, dt, d, mode, op, τ, fz⟩) = 8 / dt.bits := by
  cases dt <;> first | rfl | cases hdt

theorem dqVectored_iff {T t i : Nat} {a : DType} (ht : t < T)
    (h1 : cut (8 / dt.bits) n T t ≤ i) (h2 : i < cut (8 / dt.bits) n T (t + 1)) :
    DqVectored isa T dt a n i ↔ InDqGroups isa dt a
      (cut (8 / dt.bits) n T (t + 1) - cut (8 / dt.bits) n T t) (i - cut (8 / dt.bits) n T t) := by
  constructor
  · rintro ⟨s, hs, g1, g2, g3⟩
    simp only [runStart_eq] at g1 g2 g3
    have := run_unique hs ht g1 g2 h1 h2
    subst this
    exact g3
  · intro h
    exact ⟨t, ht, h1, h2, h⟩

theorem dequantize_workerAt {T : Nat} (hdt : dt.isQuant = true) (hin : (dt.bits * n + 7) / 8 ≤ x.size)
    (hin2 : dt = .uint2 → ft = .f32 → 0 < n → n / 4 + 1 ≤ x.size)
    (hs : ∀ i, i < n → E .ub ∨ DqRange dt ft zp (qAt x dt.bits 0 i)) :
    WorkerOkAt E isa x o ⟨.dequant, n, scale, zp, dt, ft.dtype, mode, op, τ, fz⟩ m0
      (OkElem o ft.size (fun i v => DqElemAt isa fz dt ft op scale zp m0 o n (DqVectored isa T dt ft.dtype n i) i (qAt x dt.bits 0 i) v)) T := by
  intro t b e ht hb' he' hbe hen hbi hbo he
  have ho : Desc.outBits ⟨.dequant, n, scale, zp, dt, ft.dtype, mode, op, τ, fz⟩ = ft.dtype.bits := by simp [Desc.outBits]
  rw [packedDq_eq hdt] at hb' he'
  simp only [ho] at *
  rw [FT.size_eq]
  have hdisp : quantizeDispatch isa x (dt.bits * b / 8) (o + ft.size * b) (e - b)
      ⟨.dequant, n, scale, zp, dt, ft.dtype, mode, op, τ, fz⟩ =
      dequantGeneric isa fz dt ft op x (dt.bits * b / 8) (o + ft.size * b) (e - b) scale zp := quantizeDispatch_dequant hdt
  rw [hdisp]
  have hmul : dt.bits * e = dt.bits * b + dt.bits * (e - b) := by rw [← Nat.mul_add]; congr 1; omega
  have hmul2 : ft.size * e = ft.size * b + ft.size * (e - b) := by rw [← Nat.mul_add]; congr 1; omega
  have hle : dt.bits * e ≤ dt.bits * n := Nat.mul_le_mul_left _ hen
  have hbn : dt = .uint2 → 4 ∣ b ∧ (e = n ∨ 4 ∣ e) := by
    intro h
    have hbi' := hbi
    have he'' := he
    rw [h] at hbi' he''
    simp only [DType.bits] at hbi' he''
    exact ⟨by omega, by omega⟩
  have hvec : ∀ i, i < e - b → (InDqGroups isa dt ft.dtype (e - b) i ↔ DqVectored isa T dt ft.dtype n (b + i)) := by
    intro i hi
    have := dqVectored_iff (isa := isa) (dt := dt) (a := ft.dtype) (n := n) (T := T) (t := t) (i := b + i) ht (by omega) (by omega)
    rw [← hb', ← he', show b + i - b = i by omega] at this
    exact this.symm
  refine (dequantGenericAt_triple (E := E) (fz := fz) (w := sliceWin o ft.dtype.bits b e) (m0 := m0) (x := x)
    (R := fun i v => DqElemAt isa fz dt ft op scale zp m0 (o + ft.size * b) (e - b) (InDqGroups isa dt ft.dtype (e - b) i) i (qAt x dt.bits (dt.bits * b / 8) i) v)
    hdt (by omega) (fun h1 h2 => ?_) (by simp [sliceWin, FT.size_eq]) (by simp only [sliceWin, outBytes_ft]; omega)
    (fun i hi => by rw [qAt_shift hdt hbi]; exact hs _ (by omega)) (fun i v _ h => h)).conseq (fun m hm => ?_) (fun _ m hm j hj1 hj2 => ?_)
  · have := hin2 h1 h2 (by omega)
    obtain ⟨h3, h4⟩ := hbn h1
    have hbits : dt.bits = 2 := by rw [h1]; rfl
    rw [hbits]
    omega
  · subst hm; exact InvE.zero _ _ _ _
  · rw [outBytes_ft] at hj2
    refine invE_ok (ft_size_pos ft) hm (fun i v hi h => ?_) (by omega : ft.size * b ≤ j) (by omega)
    rw [qAt_shift hdt hbi] at h
    exact dqElemAt_shift (hvec i hi) hbn hbe hen hi h

end

section
variable {E : Fault → Prop} {c : Ctx} {x : InBuf} {dt : DType} {n o : Nat} {scale τ : F32} {zp : ℤ} {mode : RoundMode} {op : ReduceOp} {m0 : Mem} {ft : FT}

/-- What the call does to element `i`, with the part that computes it. -/
def DqOutAt (isa : Isa) (fz : Fuse) (dt : DType) (ft : FT) (op : ReduceOp) (scale : F32) (zp : ℤ) (m0 m : Mem) (o n : Nat) (g : Prop) (i q : Nat) : Prop :=
  match ft with
  | .f32 => ∃ b, ((dt = .uint2 ∧ b = fz.gen) ∨ (dt ≠ .uint2 ∧ g ∧ b = fz.vec) ∨ (dt ≠ .uint2 ∧ ¬ g ∧ b = fz.scal)) ∧
      f32At m (o + 4 * i) = opF (if dt = .uint2 ∧ n / 4 * 4 ≤ i then .set else op) (f32At m0 (o + 4 * i)) (dqF b dt scale zp q)
  | .bf16 => (¬ g ∧ u16At m (o + 2 * i) = opW op (u16At m0 (o + 2 * i)) (f32ToBf16 (dqB dt scale zp q))) ∨
      (g ∧ (isa = .avx512f ∨ isa = .avx512bf16) ∧ u16At m (o + 2 * i) = cvtB isa (vopB op (dqV fz.vec dt scale zp q) (u16At m0 (o + 2 * i))))

theorem dqElemAt_out {isa : Isa} {fz : Fuse} {m : Mem} {i q v : Nat} {g : Prop} (h : DqElemAt isa fz dt ft op scale zp m0 o n g i q v)
    (hm : ∀ k, k < ft.size → m (o + ft.size * i + k) = byteOf v k) : DqOutAt isa fz dt ft op scale zp m0 m o n g i q := by
  cases ft
  · obtain ⟨b, hb, h⟩ := h
    refine ⟨b, hb, ?_⟩
    have hv := valid_opF (op := if dt = .uint2 ∧ n / 4 * 4 ≤ i then .set else op) (old := rdF m0 (o + 4 * i)) (dqF_valid b dt scale zp q)
    rw [f32At_of_bytes (a := o + 4 * i) (v := v) (by rw [h]; exact toBits_lt hv) hm, h, ofBits_toBits hv]
    rfl
  · rcases h with ⟨h0, h⟩ | ⟨h0, h1, h⟩
    · left
      refine ⟨h0, ?_⟩
      rw [u16At_of_bytes (a := o + 2 * i) (v := v) (by rw [h]; exact opW_lt bf16Bits_lt) hm, h]; rfl
    · right
      have hv : (vopB op (dqV fz.vec dt scale zp q) (rdW m0 (o + 2 * i))).Valid := valid_vopB (dqV_valid _ _ _ _ _)
      refine ⟨h0, h1, ?_⟩
      rw [u16At_of_bytes (a := o + 2 * i) (v := v) (by rw [h]; exact cvtB_lt hv) hm, h]; rfl

theorem dequantizeAt_sched (hE : ¬ E .oobRead ∧ ¬ E .oobWrite) (hdt : dt.isQuant = true) (hx : bytes dt.bits n ≤ x.size)
    (hx2 : dt = .uint2 → ft = .f32 → 0 < n → n / 4 + 1 ≤ x.size) (hsz : Sizes n c.threads)
    (hs : ∀ i, i < n → E .ub ∨ DqRange dt ft zp (code dt.bits x.data 0 i)) :
    AllSchedules E (span o (ft.size * n)) (jobs c.isa c.threads x o ⟨.dequant, n, scale, zp, dt, ft.dtype, .nearest, op, f0, c.fuse⟩) m0
      (fun m => (∀ i, i < n → DqOutAt c.isa c.fuse dt ft op scale zp m0 m o n (DqVectored c.isa c.threads dt ft.dtype n i) i (code dt.bits x.data 0 i)) ∧
        (∀ a, (a < o ∨ o + ft.size * n ≤ a) → m a = m0 a)) := by
  have hw := dequantize_workerAt (E := E) (fz := c.fuse) (isa := c.isa) (x := x) (o := o) (m0 := m0) (op := op) (scale := scale) (mode := .nearest) (τ := f0) (T := c.threads)
    hdt hx hx2 (fun i hi => by rw [qAt_spec x hdt]; exact hs i hi)
  have hb : (Desc.outBits ⟨.dequant, n, scale, zp, dt, ft.dtype, .nearest, op, f0, c.fuse⟩) = ft.dtype.bits := by simp [Desc.outBits]
  have := call_main (E := E) (tc := c.threads) hE (legal_dequant hdt) hsz.pos hsz.split hsz.addr (by rw [hb]; exact local_elem) hw
  simp only [hb, outBytes_ft] at this
  refine ⟨this.safe, this.raceFree, this.progress, this.bounded, fun k d hr hd => ?_⟩
  obtain ⟨h1, h2, h3⟩ := this.post k d hr hd
  refine ⟨fun i hi => ?_, h2⟩
  obtain ⟨v, g1, g2⟩ := okElem_at (ft_size_pos ft) h1 hi
  rw [qAt_spec x hdt] at g1
  exact dqElemAt_out g1 g2

end

/-- The exact word of the vector bf16 conversions. -/
theorem cvtB_exact {isa : Isa} {v : F32} (hv : v.Valid) (hn : v.isNaN = true → v = Flt.nan) : VecBf16 isa v (cvtB isa v) := by
  unfold VecBf16
  have hlt := toBits_lt hv
  have hv' : v.mag < 2147483648 := by rw [← magLim_f32]; exact hv
  have habs : |v.toRat| < 1 / 2 ^ 126 ↔ v.mag < 8388608 := by
    have e : (⟨false, 8388608⟩ : F32).absRat = 1 / 2 ^ 126 := by decide +kernel
    rw [toRat_abs, ← e, absRat_lt_iff]
  split
  · rename_i h
    obtain ⟨hi, hf, ha⟩ := h
    have hm := habs.mp ha
    unfold cvtB
    rw [if_pos hi]
    have e1 : (v.toBits >>> 23) &&& 0xff = 0 := by
      rw [show (0xff : Nat) = 2 ^ 8 - 1 by norm_num, Nat.and_two_pow_sub_one_eq_mod, Nat.shiftRight_eq_div_pow, toBits_eq]
      split <;> omega
    have e2 : (v.toBits >>> 31) &&& 1 = if v.neg then 1 else 0 := by
      rw [Nat.and_one_is_mod, Nat.shiftRight_eq_div_pow, toBits_eq]
      cases v.neg <;> norm_num <;> omega
    unfold cvtnepsBits
    simp only
    rw [e1, if_neg (fun h => absurd h.1 (by decide)), if_pos rfl, e2]
    cases v.neg <;> rfl
  · rename_i h
    rcases cvtB_spec (isa := isa) hv hn with g | ⟨g1, g2, g3⟩
    · exact g
    · exact absurd ⟨g1, g2, g3.1⟩ h

end Verif
