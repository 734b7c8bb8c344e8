import Verif.Proofs.Fresh
import Verif.Proofs.QuantCall
import Verif.Proofs.DequantCall

/-! # Whole calls, for all schedules -/

namespace Verif
open Spec

/-! ## Packed output in specification terms -/

theorem okPack_spec {dt : DType} (hdt : dt.isQuant = true) {n o : Nat} {P : Nat → Nat → Prop} {m : Mem}
    (h : ∀ j, j < bytes dt.bits n → OkPack dt.bits n P j (m (o + j))) :
    (∀ i, i < n → P i (code dt.bits m o i)) ∧
    (∀ t, dt.bits * n ≤ t → t < 8 * bytes dt.bits n → bit m o t = 0) ∧
    (∀ j, j < bytes dt.bits n → m (o + j) < 256) := by
  refine ⟨fun i hi => ?_, fun t h1 h2 => ?_, fun j hj => (h j hj).1⟩
  · have key : ∀ per, 8 / dt.bits = per → (per * (i / per) + i % per = i) → i % per < per → i / per < bytes dt.bits n →
        dt.bits * i / 8 = i / per → dt.bits * i % 8 = dt.bits * (i % per) → P i (code dt.bits m o i) := by
      intro per hper he hk hj e1 e2
      have := ((h (i / per) hj).2 (i % per) (by rw [hper]; exact hk)).1
      rw [hper, he] at this
      unfold code; rw [e1, e2]; exact this hi
    cases dt <;> simp only [DType.isQuant, DType.bits, Bool.false_eq_true] at *
    · exact key 4 rfl (by omega) (by omega) (by unfold bytes; omega) (by omega) (by omega)
    · exact key 2 rfl (by omega) (by omega) (by unfold bytes; omega) (by omega) (by omega)
    · exact key 1 rfl (by omega) (by omega) (by unfold bytes; omega) (by omega) (by omega)
  · have hj : t / 8 < bytes dt.bits n := by omega
    have h3 := h (t / 8) hj
    unfold bit
    generalize m (o + t / 8) = b at *
    cases dt <;> simp only [DType.isQuant, DType.bits, Bool.false_eq_true] at *
    · have h4 := (h3.2 (t % 8 / 2) (by omega)).2 (by omega)
      have : t % 8 = 0 ∨ t % 8 = 1 ∨ t % 8 = 2 ∨ t % 8 = 3 ∨ t % 8 = 4 ∨ t % 8 = 5 ∨ t % 8 = 6 ∨ t % 8 = 7 := by omega
      rcases this with e | e | e | e | e | e | e | e <;> rw [e] at h4 ⊢ <;> norm_num at h4 ⊢ <;> omega
    · have h4 := (h3.2 (t % 8 / 4) (by omega)).2 (by omega)
      have : t % 8 = 0 ∨ t % 8 = 1 ∨ t % 8 = 2 ∨ t % 8 = 3 ∨ t % 8 = 4 ∨ t % 8 = 5 ∨ t % 8 = 6 ∨ t % 8 = 7 := by omega
      rcases this with e | e | e | e | e | e | e | e <;> rw [e] at h4 ⊢ <;> norm_num at h4 ⊢ <;> omega
    · exfalso; unfold bytes at *; omega

/-- The codes and the zero padding determine the bytes. -/
theorem pack_ext {dt : DType} (hdt : dt.isQuant = true) {n o o' : Nat} {m m' : Mem}
    (hc : ∀ i, i < n → code dt.bits m o i = code dt.bits m' o' i)
    (hp : ∀ t, dt.bits * n ≤ t → t < 8 * bytes dt.bits n → bit m o t = 0)
    (hp' : ∀ t, dt.bits * n ≤ t → t < 8 * bytes dt.bits n → bit m' o' t = 0)
    (hb : ∀ j, j < bytes dt.bits n → m (o + j) < 256) (hb' : ∀ j, j < bytes dt.bits n → m' (o' + j) < 256) :
    ∀ j, j < bytes dt.bits n → m (o + j) = m' (o' + j) := by
  intro j hj
  have hb1 := hb j hj
  have hb2 := hb' j hj
  -- field `k` of byte `j`
  have field : ∀ k, k < 8 / dt.bits → m (o + j) / 2 ^ (dt.bits * k) % 2 ^ dt.bits = m' (o' + j) / 2 ^ (dt.bits * k) % 2 ^ dt.bits := by
    intro k hk
    by_cases hlt : 8 / dt.bits * j + k < n
    · have := hc _ hlt
      unfold code at this
      cases dt <;> simp only [DType.isQuant, DType.bits, Bool.false_eq_true] at * <;> norm_num at this hk ⊢
      · rw [show 2 * (4 * j + k) / 8 = j by omega, show 2 * (4 * j + k) % 8 = 2 * k by omega] at this; exact this
      · rw [show 4 * (2 * j + k) / 8 = j by omega, show 4 * (2 * j + k) % 8 = 4 * k by omega] at this; exact this
      · have hk0 : k = 0 := by omega
        subst hk0
        simpa using this
    · have z : ∀ r, r < dt.bits → bit m o (8 * j + dt.bits * k + r) = 0 ∧ bit m' o' (8 * j + dt.bits * k + r) = 0 := by
        intro r hr
        have h1 : dt.bits * n ≤ 8 * j + dt.bits * k + r := by
          cases dt <;> simp only [DType.isQuant, DType.bits, Bool.false_eq_true] at * <;> omega
        have h2 : 8 * j + dt.bits * k + r < 8 * bytes dt.bits n := by
          cases dt <;> simp only [DType.isQuant, DType.bits, Bool.false_eq_true] at * <;> omega
        exact ⟨hp _ h1 h2, hp' _ h1 h2⟩
      have zz : ∀ (mm : Mem) (oo : Nat), (∀ r, r < dt.bits → bit mm oo (8 * j + dt.bits * k + r) = 0) → mm (oo + j) < 256 →
          mm (oo + j) / 2 ^ (dt.bits * k) % 2 ^ dt.bits = 0 := by
        intro mm oo hz hbb
        have e : ∀ r, r < dt.bits → mm (oo + j) / 2 ^ (dt.bits * k + r) % 2 = 0 := by
          intro r hr
          have := hz r hr
          unfold bit at this
          have h8 : dt.bits * k + r < 8 := by
            cases dt <;> simp only [DType.isQuant, DType.bits, Bool.false_eq_true] at * <;> omega
          rw [show (8 * j + dt.bits * k + r) / 8 = j by omega, show (8 * j + dt.bits * k + r) % 8 = dt.bits * k + r by omega] at this
          exact this
        generalize mm (oo + j) = b at *
        cases dt <;> simp only [DType.isQuant, DType.bits, Bool.false_eq_true] at *
        · have e0 := e 0 (by omega)
          have e1 := e 1 (by omega)
          rw [Nat.add_zero] at e0
          rw [Nat.pow_add, ← Nat.div_div_eq_div_mul] at e1
          generalize b / 2 ^ (2 * k) = y at *
          omega
        · have e0 := e 0 (by omega)
          have e1 := e 1 (by omega)
          have e2 := e 2 (by omega)
          have e3 := e 3 (by omega)
          rw [Nat.add_zero] at e0
          rw [Nat.pow_add, ← Nat.div_div_eq_div_mul] at e1 e2 e3
          generalize b / 2 ^ (4 * k) = y at *
          omega
        · exfalso; unfold bytes at hj; omega
      rw [zz m o (fun r hr => (z r hr).1) hb1, zz m' o' (fun r hr => (z r hr).2) hb2]
  generalize m (o + j) = b at *
  generalize m' (o' + j) = b' at *
  cases dt <;> simp only [DType.isQuant, DType.bits, Bool.false_eq_true] at * <;> norm_num at field
  · have f0 := field 0 (by omega)
    have f1 := field 1 (by omega)
    have f2 := field 2 (by omega)
    have f3 := field 3 (by omega)
    norm_num at f0 f1 f2 f3; omega
  · have f0 := field 0 (by omega)
    have f1 := field 1 (by omega)
    norm_num at f0 f1; omega
  · omega

theorem elem_spec (x : InBuf) (ft : FT) (i : Nat) : x.elem ft 0 i = Spec.elem ft.dtype x.data 0 i := by
  cases ft
  · rfl
  · simp only [InBuf.elem, Spec.elem, FT.dtype, bf16ToF32, bf16At, u16At, InBuf.u16, le16, Nat.add_zero]
    congr 1
    rw [Nat.mod_eq_of_lt (by omega), Nat.mul_comm]

theorem qAt_spec (x : InBuf) {dt : DType} (hdt : dt.isQuant = true) (i : Nat) :
    qAt x dt.bits 0 i = Spec.code dt.bits x.data 0 i := by
  unfold qAt code InBuf.u8
  have : dt.bits * i % 8 + dt.bits ≤ 8 := by cases dt <;> simp [DType.isQuant, DType.bits] at * <;> omega
  generalize dt.bits * i % 8 = s at *
  generalize x.data (0 + dt.bits * i / 8) = v
  obtain ⟨k, hk⟩ : ∃ k, 8 = s + dt.bits + k := ⟨8 - s - dt.bits, by omega⟩
  have h256 : (256:ℕ) = 2 ^ (s + (dt.bits + k)) := by rw [← Nat.add_assoc, ← hk]; norm_num
  rw [h256]
  rw [Nat.pow_add 2 s, Nat.mod_mul_right_div_self, Nat.pow_add, Nat.mod_mul_right_mod]

theorem ft_of {dt : DType} (h : dt.isQuant = false) : ∃ ft : FT, dt = ft.dtype ∧ dt.stride = ft.size := by
  cases dt <;> simp [DType.isQuant] at h
  · exact ⟨.f32, rfl, rfl⟩
  · exact ⟨.bf16, rfl, rfl⟩

/-! ## The calls start their workers -/

section
variable {c : Ctx} {x : InBuf} {ft : FT} {dt : DType} {fz : Fuse} {o n : Nat} {scale τ : F32} {zp : ℤ} {mode : RoundMode} {op : ReduceOp}

theorem quantize_jobs (hdt : dt.isQuant = true) (hlt : n < 2 ^ 59) (hx : x.size = ft.size * n) :
    quantize c x ft.dtype o (bytes dt.bits n) dt scale zp mode τ =
      .ok (jobs c.isa c.threads x o ⟨.quant, n, scale, zp, ft.dtype, dt, mode, .set, τ, c.fuse⟩) := by
  have hs : ft.dtype.stride = ft.size := by cases ft <;> rfl
  have hn : x.size / ft.dtype.stride = n := by
    rw [hx, hs, Nat.mul_comm, Nat.mul_div_cancel _ (ft_size_pos ft)]
  unfold quantize
  rw [ft_isQuant, hdt, if_neg (by simp), if_neg (by simp)]
  simp only [hn]
  cases dt <;> simp only [DType.isQuant, Bool.false_eq_true] at hdt
  all_goals
    simp only [DType.bits, packedNumel, DType.stride, Except.map, bytes]
    norm_num
    exact if_pos (by omega)

theorem dequantize_jobs (hdt : dt.isQuant = true) (hlt : n < 2 ^ 59) :
    dequantize c x (bytes dt.bits n) dt o (ft.size * n) ft.dtype scale zp op =
      .ok (jobs c.isa c.threads x o ⟨.dequant, n, scale, zp, dt, ft.dtype, .nearest, op, f0, c.fuse⟩) := by
  have hs : ft.dtype.stride = ft.size := by cases ft <;> rfl
  have hn : ft.size * n / ft.dtype.stride = n := by
    rw [hs, Nat.mul_comm, Nat.mul_div_cancel _ (ft_size_pos ft)]
  unfold dequantize
  rw [ft_isQuant, hdt, if_neg (by simp), if_neg (by simp)]
  simp only [hn]
  cases dt <;> simp only [DType.isQuant, Bool.false_eq_true] at hdt
  all_goals
    simp only [DType.bits, packedNumel, DType.stride, Except.map, bytes]
    norm_num
    exact if_pos (by omega)

theorem fused_jobs (hdt : dt.isQuant = true) (hx : x.size = ft.size * n) :
    fused c x ft.dtype o (ft.size * n) dt scale zp mode op τ =
      .ok (jobs c.isa c.threads x o ⟨.quantDequant, n, scale, zp, ft.dtype, dt, mode, op, τ, c.fuse⟩) := by
  have hs : ft.dtype.stride = ft.size := by cases ft <;> rfl
  have hn : x.size / ft.dtype.stride = n := by
    rw [hx, hs, Nat.mul_comm, Nat.mul_div_cancel _ (ft_size_pos ft)]
  unfold fused
  rw [ft_isQuant, hdt, if_neg (by simp), if_neg (by simp), if_pos hx, hn]

theorem legal_quant (hdt : dt.isQuant = true) : (Desc.mk .quant n scale zp ft.dtype dt mode op τ fz).Legal := by
  cases ft <;> cases dt <;> simp [DType.isQuant] at hdt <;> simp [Desc.Legal, FT.dtype, DType.isQuant]
theorem legal_dequant (hdt : dt.isQuant = true) : (Desc.mk .dequant n scale zp dt ft.dtype mode op τ fz).Legal := by
  cases ft <;> cases dt <;> simp [DType.isQuant] at hdt <;> simp [Desc.Legal, FT.dtype, DType.isQuant]
theorem legal_fused (hdt : dt.isQuant = true) : (Desc.mk .quantDequant n scale zp ft.dtype dt mode op τ fz).Legal := by
  cases ft <;> cases dt <;> simp [DType.isQuant] at hdt <;> simp [Desc.Legal, FT.dtype, DType.isQuant]

end
end Verif
