import Verif.Proofs.DequantAll
import Verif.Proofs.QuantCall

/-! # `dequantize` and the fused call: from workers to the whole call -/

namespace Verif
open Simd

/-- Byte `j` of the output belongs to an element whose encoding satisfies `R`. -/
def OkElem (o sz : Nat) (R : Nat → Nat → Prop) (j : Nat) (m : Mem) : Prop :=
  ∃ v, R (j / sz) v ∧ ∀ k, k < sz → m (o + sz * (j / sz) + k) = byteOf v k

theorem invE_ok {m0 m : Mem} {o sz b e : Nat} {R R' : Nat → Nat → Prop} (hsz : 0 < sz) (h : InvE m0 (o + sz * b) sz R (e - b) m)
    (hR : ∀ i v, i < e - b → R i v → R' (b + i) v) {j : Nat} (h1 : sz * b ≤ j) (h2 : j < sz * e) : OkElem o sz R' j m := by
  have hb : b ≤ j / sz := by rw [Nat.le_div_iff_mul_le hsz, Nat.mul_comm]; exact h1
  have he : j / sz < e := by rw [Nat.div_lt_iff_lt_mul hsz, Nat.mul_comm]; exact h2
  obtain ⟨v, hv, hm⟩ := h.2 (j / sz - b) (by omega)
  have := hR _ _ (by omega) hv
  rw [show b + (j / sz - b) = j / sz by omega] at this
  refine ⟨v, this, fun k hk => ?_⟩
  rw [← hm k hk]; congr 1
  have : sz * (j / sz) = sz * b + sz * (j / sz - b) := by rw [← Nat.mul_add]; congr 1; omega
  omega

theorem local_elem {o : Nat} {ft : FT} {R : Nat → Nat → Prop} : Local o ft.dtype.bits (OkElem o ft.size R) := by
  intro b e j m m' h1 h2 _ hag ⟨v, hv, hm⟩
  refine ⟨v, hv, fun k hk => ?_⟩
  rw [← hm k hk]
  cases ft
  all_goals
    simp only [FT.dtype, FT.size, DType.bits] at *
    exact hag _ (by omega) (by omega)

theorem qAt_shift {dt : DType} (hdt : dt.isQuant = true) {x : InBuf} {b i : Nat} (hb : 8 ∣ dt.bits * b) :
    qAt x dt.bits (dt.bits * b / 8) i = qAt x dt.bits 0 (b + i) := by
  unfold qAt
  have e1 : dt.bits * b / 8 + dt.bits * i / 8 = 0 + dt.bits * (b + i) / 8 := by rw [Nat.mul_add]; omega
  have e2 : dt.bits * i % 8 = dt.bits * (b + i) % 8 := by rw [Nat.mul_add]; omega
  rw [e1, e2]

theorem outBytes_ft (ft : FT) (e : Nat) : (ft.dtype.bits * e + 7) / 8 = ft.size * e := by
  cases ft <;> simp only [FT.dtype, FT.size, DType.bits] <;> omega

theorem ft_isQuant (ft : FT) : ft.dtype.isQuant = false := by cases ft <;> rfl
theorem ft_size_pos (ft : FT) : 0 < ft.size := by cases ft <;> decide

section
variable {E : Fault → Prop} {isa : Isa} {x : InBuf} {o n : Nat} {m0 : Mem} {ft : FT} {dt : DType} {fz : Fuse} {mode : RoundMode}
  {scale τ : F32} {zp : ℤ} {op : ReduceOp}

theorem dqElem_shift {b e i q v : Nat} (hbn : dt = .uint2 → 4 ∣ b ∧ (e = n ∨ 4 ∣ e)) (hbe : b < e) (hen : e ≤ n) (hi : i < e - b)
    (h : DqElem isa fz dt ft op scale zp m0 (o + ft.size * b) (e - b) i q v) : DqElem isa fz dt ft op scale zp m0 o n (b + i) q v := by
  cases ft
  · have e1 : o + FT.f32.size * b + 4 * i = o + 4 * (b + i) := by simp only [FT.size]; omega
    have e2 : (dt = .uint2 ∧ (e - b) / 4 * 4 ≤ i) ↔ (dt = .uint2 ∧ n / 4 * 4 ≤ b + i) := by
      constructor
      · rintro ⟨h1, h2⟩
        obtain ⟨h3, h4⟩ := hbn h1
        exact ⟨h1, by omega⟩
      · rintro ⟨h1, h2⟩
        obtain ⟨h3, h4⟩ := hbn h1
        exact ⟨h1, by omega⟩
    unfold DqElem at h ⊢
    simp only [e1, if_congr e2 rfl rfl] at h
    exact h
  · have e1 : o + FT.bf16.size * b + 2 * i = o + 2 * (b + i) := by simp only [FT.size]; omega
    unfold DqElem at h ⊢
    simp only [e1] at h
    exact h

theorem dequantize_worker (hdt : dt.isQuant = true) (hin : (dt.bits * n + 7) / 8 ≤ x.size)
    (hin2 : dt = .uint2 → ft = .f32 → 0 < n → n / 4 + 1 ≤ x.size)
    (hs : ∀ i, i < n → E .ub ∨ DqRange dt ft zp (qAt x dt.bits 0 i)) :
    WorkerOk E isa x o ⟨.dequant, n, scale, zp, dt, ft.dtype, mode, op, τ, fz⟩ m0
      (OkElem o ft.size (fun i v => DqElem isa fz dt ft op scale zp m0 o n i (qAt x dt.bits 0 i) v)) := by
  intro b e hbe hen hbi hbo he
  have ho : Desc.outBits ⟨.dequant, n, scale, zp, dt, ft.dtype, mode, op, τ, fz⟩ = ft.dtype.bits := by simp [Desc.outBits]
  simp only [ho] at *
  rw [FT.size_eq]
  have hdisp : quantizeDispatch isa x (dt.bits * b / 8) (o + ft.size * b) (e - b)
      ⟨.dequant, n, scale, zp, dt, ft.dtype, mode, op, τ, fz⟩ =
      dequantGeneric isa fz dt ft op x (dt.bits * b / 8) (o + ft.size * b) (e - b) scale zp := quantizeDispatch_dequant hdt
  rw [hdisp]
  have hmul : dt.bits * e = dt.bits * b + dt.bits * (e - b) := by rw [← Nat.mul_add]; congr 1; omega
  have hmul2 : ft.size * e = ft.size * b + ft.size * (e - b) := by rw [← Nat.mul_add]; congr 1; omega
  have hle : dt.bits * e ≤ dt.bits * n := Nat.mul_le_mul_left _ hen
  have hbn : dt = .uint2 → 4 ∣ b ∧ (e = n ∨ 4 ∣ e) := by
    rintro rfl
    simp only [DType.bits] at hbi he
    exact ⟨by omega, by omega⟩
  refine (dequantGeneric_triple (E := E) (fz := fz) (w := sliceWin o ft.dtype.bits b e) (m0 := m0) (x := x)
    (R := fun i v => DqElem isa fz dt ft op scale zp m0 (o + ft.size * b) (e - b) i (qAt x dt.bits (dt.bits * b / 8) i) v)
    hdt (by omega) (fun h1 h2 => ?_) (by simp [sliceWin, FT.size_eq]) (by simp only [sliceWin, outBytes_ft]; omega)
    (fun i hi => by rw [qAt_shift hdt hbi]; exact hs _ (by omega)) (fun i v _ h => h)).conseq (fun m hm => ?_) (fun _ m hm j hj1 hj2 => ?_)
  · have := hin2 h1 h2 (by omega)
    obtain ⟨h3, h4⟩ := hbn h1
    subst h1
    simp only [DType.bits] at *
    omega
  · subst hm; exact InvE.zero _ _ _ _
  · rw [outBytes_ft] at hj2
    refine invE_ok (ft_size_pos ft) hm (fun i v hi h => ?_) (by omega : ft.size * b ≤ j) (by omega)
    rw [qAt_shift hdt hbi] at h
    exact dqElem_shift hbn hbe hen hi h

/-- Output encoding of the fused call for an element with value `v`. -/
def FusedElem (b : Bool) (ft : FT) (dt : DType) (mode : RoundMode) (op : ReduceOp) (scale τ : F32) (zp : ℤ) (m0 : Mem) (o i : Nat) (v : F32) (u : Nat) : Prop :=
  ∃ q, qStep mode dt.qmax v τ (invScale scale) zp = .ret q ∧
    match ft with
    | .f32 => ∃ d, dqStepF32 b q scale zp = .ret d ∧ u = (opF op (rdF m0 (o + 4 * i)) d).toBits
    | .bf16 => ∃ d, dqStepBf16 q scale zp = .ret d ∧ u = opW op (rdW m0 (o + 2 * i)) d

theorem qStep_le {q qm : Nat} {v : F32} (hq : qStep mode qm v τ (invScale scale) zp = .ret q) : q ≤ qm := by
  have : (∃ q', q' ≤ qm ∧ qStep mode qm v τ (invScale scale) zp = .ret q') ∨ qStep mode qm v τ (invScale scale) zp = .fail .ub := by
    cases mode
    · exact qNearest64_cases _ _ _ _
    · exact qStoch64_cases _ _ _ _ _
  rcases this with ⟨q', h1, h2⟩ | h2
  · rw [hq] at h2; cases h2; exact h1
  · rw [hq] at h2; cases h2

theorem requantGeneric_triple {w : Win} {off : Nat} {R : Nat → Nat → Prop} (hin : off + ft.size * n ≤ x.size) (hlo : w.lo ≤ o)
    (hhi : o + ft.size * n ≤ w.hi)
    (hs : ∀ i, i < n → StepOk E (qStep mode dt.qmax (x.elem ft off i) τ (invScale scale) zp))
    (hs2 : ∀ i, i < n → ∀ q : Nat, qStep mode dt.qmax (x.elem ft off i) τ (invScale scale) zp = .ret q → E .ub ∨ inI64 (q - zp))
    (hR : ∀ i u, i < n → FusedElem fz.gen ft dt mode op scale τ zp m0 o i (x.elem ft off i) u → R i u) :
    Triple E w (InvE m0 o ft.size R 0) (requantGeneric fz ft dt mode op x off o n scale τ zp) (fun _ => InvE m0 o ft.size R n) := by
  unfold requantGeneric
  refine Triple.bind ((Triple.forI (I := fun i m => InvE m0 o ft.size R i m ∧ i ≤ n) (N := n) (by omega) (fun i h => by simpa using h)
    (by omega) ?_).pre (fun m h => ⟨h, Nat.zero_le _⟩)) (fun i' => Triple.ret (fun m h => ?_))
  · intro i h
    have h' : i < n := by simpa using h
    have hsz : ft.size * i + ft.size ≤ ft.size * n := by rw [← Nat.mul_succ]; exact Nat.mul_le_mul_left _ h'
    refine Triple.pull (fun _ => Triple.ldXBind (by omega) ?_)
    refine Triple.step (hs i h') (fun q hq => ?_)
    cases ft with
    | f32 =>
      simp only [dqStepF32, Prog.bind_eq, Prog.bind_assoc, Prog.pure_eq, Prog.ret_bind]
      refine (Triple.subIBind (hs2 i h' q hq) (fun hc => Triple.putF32 (R := R) (m0 := m0) rfl hlo (by simp only [FT.size] at *; omega) (hR i _ h' ?_))).weaken
        (fun _ m hm => ⟨hm, by omega⟩)
      refine ⟨q, hq, Term.prod fz.gen (Flt.ofInt f32 (q - zp)) scale, ?_, rfl⟩
      unfold dqStepF32 subI; rw [if_pos hc]; rfl
    | bf16 =>
      simp only [dqStepBf16, Prog.bind_eq, Prog.bind_assoc, Prog.pure_eq, Prog.ret_bind]
      refine (Triple.subIBind (hs2 i h' q hq) (fun hc => Triple.putBf16 (R := R) (m0 := m0) rfl hlo (by simp only [FT.size] at *; omega) (hR i _ h' ?_))).weaken
        (fun _ m hm => ⟨hm, by omega⟩)
      refine ⟨q, hq, bf16Mul (f32ToBf16 (Flt.ofInt f32 (q - zp))) (f32ToBf16 scale), ?_, rfl⟩
      unfold dqStepBf16 subI; rw [if_pos hc]; rfl
  · have : ¬ i' < n := of_decide_eq_false h.2.1
    have : i' = n := by omega
    rw [← this]; exact h.1.1

theorem fused_workerAt (hdt : dt.isQuant = true) (hin : ft.size * n ≤ x.size)
    (hs : ∀ i, i < n → StepOk E (qStep mode dt.qmax (x.elem ft 0 i) τ (invScale scale) zp))
    (hs2 : ∀ i, i < n → ∀ q : Nat, qStep mode dt.qmax (x.elem ft 0 i) τ (invScale scale) zp = .ret q → E .ub ∨ inI64 (q - zp)) :
    WorkerOk E isa x o ⟨.quantDequant, n, scale, zp, ft.dtype, dt, mode, op, τ, fz⟩ m0
      (OkElem o ft.size (fun i v => FusedElem fz.gen ft dt mode op scale τ zp m0 o i (x.elem ft 0 i) v)) := by
  intro b e hbe hen hbi hbo he
  have ho : Desc.outBits ⟨.quantDequant, n, scale, zp, ft.dtype, dt, mode, op, τ, fz⟩ = ft.dtype.bits := by simp [Desc.outBits]
  simp only [ho] at *
  rw [FT.size_eq]
  have hdisp : quantizeDispatch isa x (ft.size * b) (o + ft.size * b) (e - b)
      ⟨.quantDequant, n, scale, zp, ft.dtype, dt, mode, op, τ, fz⟩ =
      requantGeneric fz ft dt mode op x (ft.size * b) (o + ft.size * b) (e - b) scale τ zp := quantizeDispatch_requant hdt
  rw [hdisp]
  have hmul2 : ft.size * e = ft.size * b + ft.size * (e - b) := by rw [← Nat.mul_add]; congr 1; omega
  have hle : ft.size * e ≤ ft.size * n := Nat.mul_le_mul_left _ hen
  refine (requantGeneric_triple (E := E) (fz := fz) (w := sliceWin o ft.dtype.bits b e) (m0 := m0) (x := x)
    (R := fun i v => FusedElem fz.gen ft dt mode op scale τ zp m0 (o + ft.size * b) i (x.elem ft (ft.size * b) i) v)
    (by omega) (by simp [sliceWin, FT.size_eq]) (by simp only [sliceWin, outBytes_ft]; omega)
    (fun i hi => by rw [elem_shift]; exact hs _ (by omega)) (fun i hi q hq => by rw [elem_shift] at hq; exact hs2 _ (by omega) q hq) (fun i v _ h => h)).conseq (fun m hm => ?_) (fun _ m hm j hj1 hj2 => ?_)
  · subst hm; exact InvE.zero _ _ _ _
  · rw [outBytes_ft] at hj2
    refine invE_ok (ft_size_pos ft) hm (fun i v hi h => ?_) (by omega : ft.size * b ≤ j) (by omega)
    rw [elem_shift] at h
    obtain ⟨q, hq, h⟩ := h
    refine ⟨q, hq, ?_⟩
    cases ft
    · simp only [FT.size, show o + 4 * b + 4 * i = o + 4 * (b + i) by omega] at h; exact h
    · simp only [FT.size, show o + 2 * b + 2 * i = o + 2 * (b + i) by omega] at h; exact h

theorem fused_worker (hdt : dt.isQuant = true) (hin : ft.size * n ≤ x.size)
    (hs : ∀ i, i < n → StepOk E (qStep mode dt.qmax (x.elem ft 0 i) τ (invScale scale) zp))
    (hs2 : ∀ q : Nat, q ≤ dt.qmax → E .ub ∨ inI64 (q - zp)) :
    WorkerOk E isa x o ⟨.quantDequant, n, scale, zp, ft.dtype, dt, mode, op, τ, fz⟩ m0
      (OkElem o ft.size (fun i v => FusedElem fz.gen ft dt mode op scale τ zp m0 o i (x.elem ft 0 i) v)) :=
  fused_workerAt hdt hin hs (fun _ _ q hq => hs2 q (qStep_le hq))

end
end Verif
