import Verif.Proofs.KernelsQ

/-! # `quant_generic`: one theorem for all dtypes, rounding modes and CPU kernels -/

namespace Verif
open Simd

/-- The scalar step `quant_generic` uses for an element outside the vector loops. -/
def scalarStep (ft : FT) (dt : DType) (mode : RoundMode) (scale τ : F32) (zp : ℤ) (v : F32) : Prog Nat :=
  match mode, ft, dt with
  | .nearest, .f32, .uint2 => qNearest64 3 v (invScale scale) zp
  | .nearest, _, _ => qNearest32 dt.qmax v (invScale scale) (wrap32 zp)
  | .stochastic, _, _ => qStoch64 dt.qmax v τ (invScale scale) zp

/-- `q` is a code some code path of the selected kernel computes for the element value `v`. -/
def ElemCode (isa : Isa) (ft : FT) (dt : DType) (mode : RoundMode) (scale τ : F32) (zp : ℤ) (v : F32) (q : Nat) : Prop :=
  scalarStep ft dt mode scale τ zp v = .ret q ∨
  (mode = .nearest ∧ ¬ (ft = .f32 ∧ dt = .uint2) ∧
    ((isa ≠ .portable ∧ isa ≠ .neon ∧ q = vcode dt.qmax (invScale scale) (wrap32 zp) v) ∨
     (isa = .neon ∧ ft = .f32 ∧ dt = .uint8 ∧ q = ncode (invScale scale) (wrap32 zp) v)))

theorem toIntAdd_cases (w : Nat) (r : F32) (zp : ℤ) :
    (∃ t, toIntAdd w r zp = .ret t) ∨ toIntAdd w r zp = .fail .ub := by
  unfold toIntAdd
  split
  · exact Or.inr rfl
  · split
    · exact Or.inl ⟨_, rfl⟩
    · exact Or.inr rfl

theorem toIntAdd_bind_cases {w : Nat} {r : F32} {zp : ℤ} (qmax : Nat) :
    (∃ q, q ≤ qmax ∧ (toIntAdd w r zp).bind (fun t => .ret (clampI qmax t)) = .ret q) ∨
      (toIntAdd w r zp).bind (fun t => .ret (clampI qmax t)) = .fail .ub := by
  rcases toIntAdd_cases w r zp with ⟨t, h⟩ | h <;> rw [h]
  · exact Or.inl ⟨_, clampI_le _ _, rfl⟩
  · exact Or.inr rfl

theorem qNearest32_cases (qmax : Nat) (v inv : F32) (zp : ℤ) :
    (∃ q, q ≤ qmax ∧ qNearest32 qmax v inv zp = .ret q) ∨ qNearest32 qmax v inv zp = .fail .ub :=
  toIntAdd_bind_cases qmax
theorem qNearest64_cases (qmax : Nat) (v inv : F32) (zp : ℤ) :
    (∃ q, q ≤ qmax ∧ qNearest64 qmax v inv zp = .ret q) ∨ qNearest64 qmax v inv zp = .fail .ub :=
  toIntAdd_bind_cases qmax
theorem qStoch64_cases (qmax : Nat) (v τ inv : F32) (zp : ℤ) :
    (∃ q, q ≤ qmax ∧ qStoch64 qmax v τ inv zp = .ret q) ∨ qStoch64 qmax v τ inv zp = .fail .ub :=
  toIntAdd_bind_cases qmax

theorem scalarStep_cases {ft : FT} {dt : DType} {mode : RoundMode} {scale τ : F32} {zp : ℤ} (v : F32) :
    (∃ q, q ≤ dt.qmax ∧ scalarStep ft dt mode scale τ zp v = .ret q) ∨ scalarStep ft dt mode scale τ zp v = .fail .ub := by
  unfold scalarStep
  split
  · exact qNearest64_cases _ _ _ _
  · exact qNearest32_cases _ _ _ _
  · exact qStoch64_cases _ _ _ _ _

theorem scalarStep_le {ft : FT} {dt : DType} {mode : RoundMode} {scale τ : F32} {zp : ℤ} {v : F32} {q : Nat}
    (h : scalarStep ft dt mode scale τ zp v = .ret q) : q ≤ dt.qmax := by
  rcases scalarStep_cases (ft := ft) (dt := dt) (mode := mode) (scale := scale) (τ := τ) (zp := zp) v with ⟨q', h1, h2⟩ | h2
  · rw [h] at h2; injection h2 with h2; omega
  · rw [h] at h2; cases h2

theorem scalarStep_ok {E : Fault → Prop} (hE : E .ub) {ft : FT} {dt : DType} {mode : RoundMode} {scale τ : F32} {zp : ℤ} (v : F32) :
    StepOk E (scalarStep ft dt mode scale τ zp v) := by
  rcases scalarStep_cases (ft := ft) (dt := dt) (mode := mode) (scale := scale) (τ := τ) (zp := zp) v with ⟨q', h1, h2⟩ | h2
  · exact Or.inl ⟨_, h2⟩
  · exact Or.inr ⟨_, h2, hE⟩

theorem ElemCode.le {isa : Isa} {ft : FT} {dt : DType} {mode : RoundMode} {scale τ : F32} {zp : ℤ} {v : F32} {q : Nat}
    (h : ElemCode isa ft dt mode scale τ zp v q) : q ≤ dt.qmax := by
  rcases h with h | ⟨_, _, ⟨_, _, rfl⟩ | ⟨_, _, rfl, rfl⟩⟩
  · exact scalarStep_le h
  · exact vcode_le _ _ _ _
  · exact ncode_le _ _ _

/-- Codes per byte. -/
def DType.per (dt : DType) : Nat := 8 / dt.bits

section
variable {E : Fault → Prop} {w : Win} {m0 : Mem} {x : InBuf} {off o n : Nat} {P : Nat → Nat → Prop}

/-- `q` is the code the selected kernel computes for the element value `v`; `g` says that the element lies in
the vector part of its slice. -/
def CodeAt (isa : Isa) (ft : FT) (dt : DType) (mode : RoundMode) (scale τ : F32) (zp : ℤ) (g : Prop) (v : F32) (q : Nat) : Prop :=
  (mode = .nearest ∧ g ∧ isa ≠ .portable ∧ isa ≠ .neon ∧ q = vcode dt.qmax (invScale scale) (wrap32 zp) v) ∨
  (mode = .nearest ∧ g ∧ isa = .neon ∧ ft = .f32 ∧ dt = .uint8 ∧ q = ncode (invScale scale) (wrap32 zp) v) ∨
  (¬ (mode = .nearest ∧ g) ∧ scalarStep ft dt mode scale τ zp v = .ret q)

theorem CodeAt.le {isa : Isa} {ft : FT} {dt : DType} {mode : RoundMode} {scale τ : F32} {zp : ℤ} {g : Prop} {v : F32} {q : Nat}
    (h : CodeAt isa ft dt mode scale τ zp g v q) : q ≤ dt.qmax := by
  rcases h with ⟨_, _, _, _, rfl⟩ | ⟨_, _, _, _, rfl, rfl⟩ | ⟨_, h⟩
  · exact vcode_le _ _ _ _
  · exact ncode_le _ _ _
  · exact scalarStep_le h

theorem CodeAt.elemCode {isa : Isa} {ft : FT} {dt : DType} {mode : RoundMode} {scale τ : F32} {zp : ℤ} {o n i : Nat} {v : F32} {q : Nat}
    (h : CodeAt isa ft dt mode scale τ zp (Spec.InGroups isa ft.dtype dt o n i) v q) : ElemCode isa ft dt mode scale τ zp v q := by
  rcases h with ⟨h1, h2, h3, h4, h5⟩ | ⟨h1, h2, h3, h4, h5, h6⟩ | ⟨_, h⟩
  · refine Or.inr ⟨h1, ?_, Or.inl ⟨h3, h4, h5⟩⟩
    rintro ⟨rfl, rfl⟩
    exact not_inGroups (by cases isa <;> rfl) h2
  · exact Or.inr ⟨h1, by simp [h5], Or.inr ⟨h3, h4, h5, h6⟩⟩
  · exact Or.inl h

/-- Every worker of a quantize call: in-bounds, produces the packed codes of its elements, touches
nothing else; only the elements outside the vector part need a defined scalar step. -/
theorem quantGenericAt_triple {isa : Isa} {ft : FT} {dt : DType} {mode : RoundMode} {scale τ : F32} {zp : ℤ}
    (hdt : dt.isQuant = true) (hin : off + ft.size * n ≤ x.size) (hlo : w.lo ≤ o)
    (hhi : o + (n + dt.per - 1) / dt.per ≤ w.hi)
    (hs : ∀ i, i < n → ¬ (mode = .nearest ∧ Spec.InGroups isa ft.dtype dt o n i) → StepOk E (scalarStep ft dt mode scale τ zp (x.elem ft off i)))
    (hs0 : n % dt.per ≠ 0 → ¬ (ft = .f32 ∧ dt = .uint2) → StepOk E (scalarStep ft dt mode scale τ zp f0))
    (hP : ∀ i q, i < n → CodeAt isa ft dt mode scale τ zp (Spec.InGroups isa ft.dtype dt o n i) (x.elem ft off i) q → P i q) :
    Triple E w (Inv m0 o (OkPack dt.bits n P) 0) (quantGeneric isa ft dt mode x off o n scale τ zp)
      (fun _ => Inv m0 o (OkPack dt.bits n P) ((n + dt.per - 1) / dt.per)) := by
  set P' : Nat → Nat → Prop := fun i q => CodeAt isa ft dt mode scale τ zp (Spec.InGroups isa ft.dtype dt o n i) (x.elem ft off i) q with hP'
  have hb : ∀ i q, P' i q → q ≤ dt.qmax := fun i q h => h.le
  have hstep : ∀ i q, i < n → ¬ (mode = .nearest ∧ Spec.InGroups isa ft.dtype dt o n i) →
      scalarStep ft dt mode scale τ zp (x.elem ft off i) = .ret q → P' i q := fun i q _ hg h => Or.inr (Or.inr ⟨hg, h⟩)
  suffices h : Triple E w (Inv m0 o (OkPack dt.bits n P') 0) (quantGeneric isa ft dt mode x off o n scale τ zp)
      (fun _ => Inv m0 o (OkPack dt.bits n P') ((n + dt.per - 1) / dt.per)) by
    refine h.conseq (fun m hm => ?_) (fun _ m hm => hm.mono (fun j b _ hOk => ⟨hOk.1, fun k hk => ⟨fun hlt => ?_, (hOk.2 k hk).2⟩⟩))
    · exact ⟨hm.1, fun j hj => absurd hj (Nat.not_lt_zero _)⟩
    · exact hP _ _ hlt ((hOk.2 k hk).1 hlt)
  have hst : ∀ v, StepOk (fun _ => True) (scalarStep ft dt mode scale τ zp v) := fun v => scalarStep_ok trivial v
  have hbv : ∀ v q, scalarStep ft dt mode scale τ zp v = .ret q → q ≤ dt.qmax := fun v q h => scalarStep_le h
  have hV : mode = .nearest → isa ≠ .portable → isa ≠ .neon → ∀ i, i < n → Spec.InGroups isa ft.dtype dt o n i →
      P' i (vcode dt.qmax (invScale scale) (wrap32 zp) (x.elem ft off i)) :=
    fun h1 h3 h4 i _ hg => Or.inl ⟨h1, hg, h3, h4, rfl⟩
  have hN : mode = .nearest → ft = .f32 → dt = .uint8 → isa = .neon → ∀ i, i < n → Spec.InGroups isa ft.dtype dt o n i →
      P' i (ncode (invScale scale) (wrap32 zp) (x.elem ft off i)) :=
    fun h1 h2 h3 h4 i _ hg => Or.inr (Or.inl ⟨h1, hg, h4, h2, h3, rfl⟩)
  clear_value P'
  clear hP hP'
  cases mode <;> cases ft <;> cases dt <;> try (cases hdt)
  all_goals
    simp only [DType.per, DType.bits, DType.qmax, FT.size, scalarStep, FT.dtype] at *
    norm_num at hhi hs0 hs hstep ⊢
  -- nearest
  · exact quantU2_triple (ft := .f32) hin hlo hhi hst (fun i hi => hs i hi (not_inGroups (by cases isa <;> rfl)))
      (fun i q hi => hstep i q hi (not_inGroups (by cases isa <;> rfl))) hbv
  · exact quantF32U4_triple hin hlo hhi hs (fun h => hs0 h (by simp)) hstep (hV trivial) hbv
  · exact quantF32U8_triple hin hlo hhi hs hstep (hV trivial) (hN trivial trivial trivial) hb
  · exact quantBf16U2_triple hin hlo hhi hst hs (fun h => hs0 h (by simp)) hstep
      (fun h => hV trivial (by rcases h with rfl | rfl <;> simp) (by rcases h with rfl | rfl <;> simp)) hbv
  · exact quantBf16U4_triple hin hlo hhi hs (fun h => hs0 h (by simp)) hstep (hV trivial) hbv
  · exact quantBf16U8_triple hin hlo hhi hs hstep (hV trivial) hb
  -- stochastic
  · exact quantU2_triple (ft := .f32) hin hlo hhi hst (fun i hi => hs i hi (by simp)) (fun i q hi => hstep i q hi (by simp)) hbv
  · exact quantU4From_triple (ft := .f32) hin hlo hhi (Nat.zero_le _) rfl (fun i _ hi => hs i hi (by simp)) (fun h => hs0 h (by simp)) (fun i q _ hi => hstep i q hi (by simp)) hbv
  · refine Triple.bind (byteLoop (ft := .f32) (step := fun v => qStep .stochastic 255 v τ (invScale scale) zp) (B := n) hin hlo hhi
      (Nat.le_refl n) (by simp) (by simp) (Nat.zero_le _) (fun j _ hj => hs j hj (by simp)) (fun j q _ hj => hstep j q hj (by simp)) hb)
      (fun i' => Triple.ret (fun m h => ?_))
    have h2 : ¬ i' < n := of_decide_eq_false h.2.2.1
    have : i' = n := by omega
    rw [← this]; rw [← this] at h; exact h.1
  · exact quantU2_triple (ft := .bf16) hin hlo hhi hst (fun i hi => hs i hi (by simp)) (fun i q hi => hstep i q hi (by simp)) hbv
  · exact quantU4From_triple (ft := .bf16) hin hlo hhi (Nat.zero_le _) rfl (fun i _ hi => hs i hi (by simp)) (fun h => hs0 h (by simp)) (fun i q _ hi => hstep i q hi (by simp)) hbv
  · refine Triple.bind (byteLoop (ft := .bf16) (step := fun v => qStep .stochastic 255 v τ (invScale scale) zp) (B := n) hin hlo hhi
      (Nat.le_refl n) (by simp) (by simp) (Nat.zero_le _) (fun j _ hj => hs j hj (by simp)) (fun j q _ hj => hstep j q hj (by simp)) hb)
      (fun i' => Triple.ret (fun m h => ?_))
    have h2 : ¬ i' < n := of_decide_eq_false h.2.2.1
    have : i' = n := by omega
    rw [← this]; rw [← this] at h; exact h.1

/-- As `quantGenericAt_triple`, with a defined scalar step for every element. -/
theorem quantGeneric_triple {isa : Isa} {ft : FT} {dt : DType} {mode : RoundMode} {scale τ : F32} {zp : ℤ}
    (hdt : dt.isQuant = true) (hin : off + ft.size * n ≤ x.size) (hlo : w.lo ≤ o)
    (hhi : o + (n + dt.per - 1) / dt.per ≤ w.hi)
    (hs : ∀ i, i < n → StepOk E (scalarStep ft dt mode scale τ zp (x.elem ft off i)))
    (hs0 : n % dt.per ≠ 0 → StepOk E (scalarStep ft dt mode scale τ zp f0))
    (hP : ∀ i q, i < n → ElemCode isa ft dt mode scale τ zp (x.elem ft off i) q → P i q) :
    Triple E w (Inv m0 o (OkPack dt.bits n P) 0) (quantGeneric isa ft dt mode x off o n scale τ zp)
      (fun _ => Inv m0 o (OkPack dt.bits n P) ((n + dt.per - 1) / dt.per)) :=
  quantGenericAt_triple hdt hin hlo hhi (fun i hi _ => hs i hi) (fun h _ => hs0 h) (fun i q hi h => hP i q hi h.elemCode)
end
end Verif
