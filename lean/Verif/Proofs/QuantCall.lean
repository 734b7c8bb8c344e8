import Verif.Proofs.Dispatch
import Verif.Proofs.QuantAll
import Verif.Proofs.Partition

/-! # `quantize`: from workers to the whole call -/

namespace Verif

theorem FT.size_eq (ft : FT) (b : Nat) : ft.dtype.bits * b / 8 = ft.size * b := by
  cases ft <;> simp only [FT.dtype, FT.size, DType.bits] <;> grind

theorem elem_shift (x : InBuf) (ft : FT) (b i : Nat) : x.elem ft (ft.size * b) i = x.elem ft 0 (b + i) := by
  cases ft
  · simp only [InBuf.elem, FT.size]; rw [show 4 * b + 4 * i = 0 + 4 * (b + i) by ring]
  · simp only [InBuf.elem, FT.size]; rw [show 2 * b + 2 * i = 0 + 2 * (b + i) by ring]

theorem outBytes_eq (dt : DType) (hdt : dt.isQuant = true) (n : Nat) :
    (n + dt.per - 1) / dt.per = (dt.bits * n + 7) / 8 := by
  cases dt <;> simp [DType.isQuant, DType.per, DType.bits] at * <;> omega

/-- A slice's packed bytes are the corresponding bytes of the whole buffer. -/
theorem okPack_slice {dt : DType} (hdt : dt.isQuant = true) {n b e j c : Nat} {P : Nat → Nat → Prop} (_hbe : b < e) (hen : e ≤ n)
    (hb : 8 ∣ dt.bits * b) (he : e = n ∨ 8 ∣ dt.bits * e) (hj : dt.bits * b / 8 ≤ j) (hj2 : j < (dt.bits * e + 7) / 8)
    (h : OkPack dt.bits (e - b) (fun i q => P (b + i) q) (j - dt.bits * b / 8) c) : OkPack dt.bits n P j c := by
  refine ⟨h.1, fun k hk => ?_⟩
  obtain ⟨h1, h2⟩ := h.2 k hk
  cases dt <;> simp only [DType.isQuant, DType.bits, Bool.false_eq_true] at * <;> norm_num at h1 h2 hk hb he ⊢
  · constructor
    · intro hlt
      have e1 : b + (4 * (j - 2 * b / 8) + k) = 4 * j + k := by omega
      rw [e1] at h1
      exact h1 (by omega)
    · intro hge; exact h2 (by omega)
  · constructor
    · intro hlt
      have e1 : b + (2 * (j - 4 * b / 8) + k) = 2 * j + k := by omega
      rw [e1] at h1
      exact h1 (by omega)
    · intro hge; exact h2 (by omega)
  · constructor
    · intro hlt
      have e1 : b + (j - b + k) = j + k := by omega
      rw [e1] at h1
      exact h1 (by omega)
    · intro hge; exact h2 (by omega)

section
variable {E : Fault → Prop} {isa : Isa} {x : InBuf} {o n : Nat} {m0 : Mem} {ft : FT} {dt : DType} {fz : Fuse} {mode : RoundMode}
  {scale τ : F32} {zp : ℤ} {op : ReduceOp}

theorem quantize_worker (hdt : dt.isQuant = true) (hin : ft.size * n ≤ x.size)
    (hs : ∀ i, i < n → StepOk E (scalarStep ft dt mode scale τ zp (x.elem ft 0 i)))
    (hs0 : n % dt.per ≠ 0 → StepOk E (scalarStep ft dt mode scale τ zp f0)) :
    WorkerOk E isa x o ⟨.quant, n, scale, zp, ft.dtype, dt, mode, op, τ, fz⟩ m0
      (fun j m => OkPack dt.bits n (fun i q => ElemCode isa ft dt mode scale τ zp (x.elem ft 0 i) q) j (m (o + j))) := by
  intro b e hbe hen hbi hbo he
  have ho : Desc.outBits ⟨.quant, n, scale, zp, ft.dtype, dt, mode, op, τ, fz⟩ = dt.bits := by simp [Desc.outBits]
  simp only [ho] at *
  rw [FT.size_eq]
  have hdisp : quantizeDispatch isa x (ft.size * b) (o + dt.bits * b / 8) (e - b)
      ⟨.quant, n, scale, zp, ft.dtype, dt, mode, op, τ, fz⟩ =
      quantGeneric isa ft dt mode x (ft.size * b) (o + dt.bits * b / 8) (e - b) scale τ zp := quantizeDispatch_quant hdt
  rw [hdisp]
  have hsz : ft.size * e ≤ x.size := Nat.le_trans (Nat.mul_le_mul_left _ hen) hin
  have hbe' : ft.size * b + ft.size * (e - b) = ft.size * e := by rw [← Nat.mul_add]; congr 1; omega
  have hbytes : dt.bits * b / 8 + (e - b + dt.per - 1) / dt.per = (dt.bits * e + 7) / 8 := by
    rw [outBytes_eq dt hdt]
    have : dt.bits * e = dt.bits * b + dt.bits * (e - b) := by rw [← Nat.mul_add]; congr 1; omega
    omega
  have hmod : (e - b) % dt.per ≠ 0 → n % dt.per ≠ 0 := by
    intro h
    have : e = n := by
      rcases he with h' | h'
      · exact h'
      · exfalso; apply h
        cases dt <;> simp [DType.isQuant, DType.per, DType.bits] at * <;> omega
    subst this
    cases dt <;> simp [DType.isQuant, DType.per, DType.bits] at * <;> omega
  have := quantGeneric_triple (E := E) (w := sliceWin o dt.bits b e) (m0 := m0) (x := x) (off := ft.size * b)
    (o := o + dt.bits * b / 8) (n := e - b) (isa := isa) (ft := ft) (dt := dt) (mode := mode) (scale := scale) (τ := τ) (zp := zp)
    (P := fun i q => ElemCode isa ft dt mode scale τ zp (x.elem ft 0 (b + i)) q)
    hdt (by omega) (by simp [sliceWin]) (by simp only [sliceWin]; omega)
    (fun i hi => by rw [elem_shift]; exact hs _ (by omega)) (fun h => hs0 (hmod h))
    (fun i q hi h => by rw [elem_shift] at h; exact h)
  refine this.conseq (fun m hm => ?_) (fun _ m hm j hj1 hj2 => ?_)
  · subst hm; exact Inv.zero _ _ _
  · have hj1' : dt.bits * b / 8 ≤ j := by omega
    have h := hm.2 (j - dt.bits * b / 8) (by omega)
    rw [show o + dt.bits * b / 8 + (j - dt.bits * b / 8) = o + j by omega] at h
    exact okPack_slice (P := fun i q => ElemCode isa ft dt mode scale τ zp (x.elem ft 0 i) q) hdt hbe hen hbo
      (he.imp id (fun h => h.2)) hj1' (by omega) h

theorem local_byte {bits : Nat} {P : Nat → Nat → Prop} : Local o bits (fun j m => P j (m (o + j))) := by
  intro b e j m m' h1 h2 _ hag h
  rw [hag _ h1 h2]; exact h

end
end Verif
