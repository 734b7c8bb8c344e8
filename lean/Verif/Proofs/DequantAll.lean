import Verif.SpecVector
import Verif.Proofs.KernelsDq
import Verif.Proofs.Partition

/-! # `dequant_generic`: one theorem for all dtypes, reduce ops and CPU kernels -/

namespace Verif
open Simd

theorem Flt.add_comm {f : Fmt} (a b : Flt f) : Flt.add a b = Flt.add b a := by
  unfold Flt.add
  by_cases ha : a.isNaN <;> by_cases hb : b.isNaN <;> simp only [ha, hb, Bool.or_true, Bool.or_false, if_true, Bool.false_eq_true, if_false]
  by_cases h1 : a.isInf <;> by_cases h2 : b.isInf <;>
    simp only [h1, h2, Bool.true_and, Bool.false_and, if_true, Bool.false_eq_true, if_false]
  · have e : ∀ x y : Flt f, x.isInf = true → y.isInf = true → x.neg = y.neg → x = y := by
      rintro ⟨s, m⟩ ⟨t, k⟩ h1 h2 h3
      simp only [Flt.isInf, decide_eq_true_eq] at h1 h2
      cases h3; rw [h1, h2]
    by_cases hn : a.neg = b.neg
    · rw [e a b h1 h2 hn]
    · have : (a.neg ^^ b.neg) = true := by revert hn; cases a.neg <;> cases b.neg <;> simp
      rw [this, Bool.xor_comm, this, if_pos rfl, if_pos rfl]
  · rw [_root_.add_comm, Bool.and_comm]

/-- The difference `q - zp` computed by the scalar code: 64-bit for the generic (uint2) kernel,
32-bit with a truncated zero point elsewhere. -/
def DqRange (dt : DType) (ft : FT) (zp : ℤ) (q : Nat) : Prop :=
  match ft, dt with
  | .f32, .uint2 => inI64 (q - zp)
  | .bf16, .uint2 => True
  | _, _ => inI32 (q - wrap32 zp)

/-- Value of code `q` as the f32-output kernels compute it. -/
def dqF (b : Bool) (dt : DType) (scale : F32) (zp : ℤ) (q : Nat) : Term :=
  match dt with
  | .uint2 => Term.prod b (Flt.ofInt f32 (q - zp)) scale
  | _ => dqMulT b scale (wrap32 zp) q

/-- Value of code `q` in the scalar part of the bf16-output kernels. -/
def dqB (dt : DType) (scale : F32) (zp : ℤ) (q : Nat) : F32 :=
  match dt with
  | .uint2 => dqStepU2Bf16 q scale (wrap32 zp)
  | _ => dqMul scale (wrap32 zp) q

/-- Value of code `q` in the AVX-512 part of the bf16-output kernels. -/
def dqV (b : Bool) (dt : DType) (scale : F32) (zp : ℤ) (q : Nat) : Term :=
  match dt with
  | .uint8 => dqMulT b scale (wrap32 zp) q
  | _ => Term.plain (dqFmaV scale (wrap32 zp) q)

/-- Encoding of output element `i` of `n`, computed from code `q` and the old memory. -/
def DqElem (isa : Isa) (fz : Fuse) (dt : DType) (ft : FT) (op : ReduceOp) (scale : F32) (zp : ℤ) (m0 : Mem) (o n i q v : Nat) : Prop :=
  match ft with
  | .f32 => ∃ b, fz.Has b ∧ v = (opF (if dt = .uint2 ∧ n / 4 * 4 ≤ i then .set else op) (rdF m0 (o + 4 * i)) (dqF b dt scale zp q)).toBits
  | .bf16 => v = opW op (rdW m0 (o + 2 * i)) (f32ToBf16 (dqB dt scale zp q)) ∨
      ((isa = .avx512f ∨ isa = .avx512bf16) ∧ v = cvtB isa (vopB op (dqV fz.vec dt scale zp q) (rdW m0 (o + 2 * i))))

/-- As `DqElem`, with the part of the code that computes the element: `g` if the vector part. -/
def DqElemAt (isa : Isa) (fz : Fuse) (dt : DType) (ft : FT) (op : ReduceOp) (scale : F32) (zp : ℤ) (m0 : Mem) (o n : Nat) (g : Prop) (i q v : Nat) : Prop :=
  match ft with
  | .f32 => ∃ b, ((dt = .uint2 ∧ b = fz.gen) ∨ (dt ≠ .uint2 ∧ g ∧ b = fz.vec) ∨ (dt ≠ .uint2 ∧ ¬ g ∧ b = fz.scal)) ∧
      v = (opF (if dt = .uint2 ∧ n / 4 * 4 ≤ i then .set else op) (rdF m0 (o + 4 * i)) (dqF b dt scale zp q)).toBits
  | .bf16 => (¬ g ∧ v = opW op (rdW m0 (o + 2 * i)) (f32ToBf16 (dqB dt scale zp q))) ∨
      (g ∧ (isa = .avx512f ∨ isa = .avx512bf16) ∧ v = cvtB isa (vopB op (dqV fz.vec dt scale zp q) (rdW m0 (o + 2 * i))))

theorem DqElemAt.elem {isa : Isa} {fz : Fuse} {dt : DType} {ft : FT} {op : ReduceOp} {scale : F32} {zp : ℤ} {m0 : Mem} {o n i q v : Nat} {g : Prop}
    (h : DqElemAt isa fz dt ft op scale zp m0 o n g i q v) : DqElem isa fz dt ft op scale zp m0 o n i q v := by
  cases ft
  · obtain ⟨b, hb, h⟩ := h
    refine ⟨b, ?_, h⟩
    rcases hb with ⟨_, rfl⟩ | ⟨_, _, rfl⟩ | ⟨_, _, rfl⟩ <;> simp [Fuse.Has]
  · rcases h with ⟨_, h⟩ | ⟨_, h⟩
    · exact Or.inl h
    · exact Or.inr h

section
variable {E : Fault → Prop} {w : Win} {m0 : Mem} {x : InBuf} {off o n sz : Nat} {R : Nat → Nat → Prop}

theorem Triple.subIBind {α : Type} {P : Mem → Prop} {b : Nat} {y z : ℤ} {k : ℤ → Prog α} {Q : α → Mem → Prop}
    (h : E .ub ∨ (-(2 ^ (b - 1) : ℤ) ≤ y - z ∧ y - z < 2 ^ (b - 1)))
    (hk : (-(2 ^ (b - 1) : ℤ) ≤ y - z ∧ y - z < 2 ^ (b - 1)) → Triple E w P (k (y - z)) Q) : Triple E w P ((subI b y z).bind k) Q := by
  unfold subI
  split
  · rename_i hc; exact hk hc
  · rename_i hc
    rcases h with h | h
    · exact Triple.fail h
    · exact absurd h hc

theorem wrap32_id {z : ℤ} (h : inI32 z) : wrap32 z = z := by
  unfold wrap32 inI32 at *
  apply Int.bmod_eq_of_le <;> omega

theorem putDq32_triple {b : Bool} {op : ReduceOp} {scale : F32} {zp : ℤ} {i q : Nat} (h : E .ub ∨ inI32 (q - zp)) (hlo : w.lo ≤ o)
    (hhi : o + 4 * (i + 1) ≤ w.hi) (hR : R i (opF op (rdF m0 (o + 4 * i)) (dqMulT b scale zp q)).toBits) :
    Triple E w (InvE m0 o 4 R i) (putDq32 b op o scale zp i q) (fun _ => InvE m0 o 4 R (i + 1)) := by
  unfold putDq32 dqStep32
  simp only [Prog.bind_eq, Prog.bind_assoc, Prog.pure_eq, Prog.ret_bind]
  refine Triple.subIBind h (fun hc => Triple.putF32 rfl hlo hhi ?_)
  have : wrap32 (q - zp) = q - zp := wrap32_id hc
  unfold dqMulT at hR; rw [this] at hR; exact hR

theorem putDq64_triple {b : Bool} {op : ReduceOp} {scale : F32} {zp : ℤ} {i q : Nat} (h : E .ub ∨ inI64 (q - zp)) (hlo : w.lo ≤ o)
    (hhi : o + 4 * (i + 1) ≤ w.hi) (hR : R i (opF op (rdF m0 (o + 4 * i)) (Term.prod b (Flt.ofInt f32 (q - zp)) scale)).toBits) :
    Triple E w (InvE m0 o 4 R i) (putDq64 b op o scale zp i q) (fun _ => InvE m0 o 4 R (i + 1)) := by
  unfold putDq64 dqStepF32
  simp only [Prog.bind_eq, Prog.bind_assoc, Prog.pure_eq, Prog.ret_bind]
  exact Triple.subIBind h (fun hc => Triple.putF32 rfl hlo hhi hR)

theorem putDq32b_triple {op : ReduceOp} {scale : F32} {zp : ℤ} {i q : Nat} (h : E .ub ∨ inI32 (q - zp)) (hlo : w.lo ≤ o)
    (hhi : o + 2 * (i + 1) ≤ w.hi) (hR : R i (opW op (rdW m0 (o + 2 * i)) (f32ToBf16 (dqMul scale zp q)))) :
    Triple E w (InvE m0 o 2 R i) (putDq32b op o scale zp i q) (fun _ => InvE m0 o 2 R (i + 1)) := by
  unfold putDq32b dqStep32
  simp only [Prog.bind_eq, Prog.bind_assoc, Prog.pure_eq, Prog.ret_bind]
  refine Triple.subIBind h (fun hc => Triple.putBf16 rfl hlo hhi ?_)
  have : wrap32 (q - zp) = q - zp := wrap32_id hc
  unfold dqMul at hR; rw [this] at hR; exact hR

/-- Group of registers of codes → float output. -/
theorem emitF32_codes {c i a cnt : Nat} {b : Bool} {op : ReduceOp} {l : List (V c ℤ)} {g : Nat → Nat} {scale : F32} {zp : ℤ}
    (hl : Lanes l (fun k => (g k : ℤ))) (ha : a = o + 4 * i) (hcnt : cnt = c * l.length) (hlo : w.lo ≤ o) (hhi : o + 4 * (i + cnt) ≤ w.hi)
    (hR : ∀ k, k < cnt → R (i + k) (opF op (rdF m0 (o + 4 * (i + k))) (dqMulT b scale zp (g k))).toBits) :
    Triple E w (InvE m0 o 4 R i) (Verif.emitF32 op a (l.map (dqReg b scale zp))) (fun _ => InvE m0 o 4 R (i + cnt)) :=
  Triple.emitF32 (lanes_dqReg hl) ha (by rw [hcnt, List.length_map]) hlo hhi hR

theorem lanes_cvt {c : Nat} {l : List (V 16 Nat)} {g : Nat → Nat} (hl : Lanes l g) (hc : c ≤ 16) (hc' : c = 16) :
    Lanes (l.map (fun r => (cvtepu8_epi32 r hc : V c ℤ))) (fun k => (g k : ℤ)) := by
  subst hc'
  exact hl.map (f := fun r => (cvtepu8_epi32 r hc : V 16 ℤ)) (f' := fun z => (z : ℤ)) (fun v j => by simp [cvtepu8_epi32])

theorem inDq_iff {isa : Isa} {a b : DType} {k n i : Nat} (h : Spec.dqGroup isa a b = some k) :
    Spec.InDqGroups isa a b n i ↔ i < n / k * k := by
  unfold Spec.InDqGroups; rw [h]; simp

theorem not_inDq {isa : Isa} {a b : DType} {n i : Nat} (h : Spec.dqGroup isa a b = none) : ¬ Spec.InDqGroups isa a b n i := by
  unfold Spec.InDqGroups; rw [h]; simp

theorem dequantU8F32_triple {isa : Isa} {fz : Fuse} {op : ReduceOp} {scale : F32} {zp : ℤ} (hin : off + n ≤ x.size) (hlo : w.lo ≤ o)
    (hhi : o + 4 * n ≤ w.hi) (hs : ∀ i, i < n → E .ub ∨ inI32 (qAt x 8 off i - zp))
    (hR : ∀ i, i < n → ¬ Spec.InDqGroups isa .uint8 .f32 n i → R i (opF op (rdF m0 (o + 4 * i)) (dqMulT fz.scal scale zp (qAt x 8 off i))).toBits)
    (hV : ∀ i, i < n → Spec.InDqGroups isa .uint8 .f32 n i → R i (opF op (rdF m0 (o + 4 * i)) (dqMulT fz.vec scale zp (qAt x 8 off i))).toBits) :
    Triple E w (InvE m0 o 4 R 0) (dequantU8F32 isa fz op x off o n scale zp) (fun _ => InvE m0 o 4 R n) := by
  unfold dequantU8F32
  refine Triple.bindPost (Q := fun i => InvE m0 o 4 R i) (φ := fun i => i ≤ n ∧ (∀ j, i ≤ j → j < n → ¬ Spec.InDqGroups isa .uint8 .f32 n j)) ?_ (fun i ⟨hi, HG⟩ =>
    dqU8Loop_triple hi hin (fun j hj hj' => putDq32_triple (hs j hj') hlo (by omega) (hR j hj' (HG j hj hj'))))
  have key512 : (isa = .avx512f ∨ isa = .avx512bf16) → Triple E w (InvE m0 o 4 R 0) (forI (fun i => i + 63 < n) 64 (fun i => do
        let in0 ← Simd.loadu_u8 16 x off (i + 0)
        let in1 ← Simd.loadu_u8 16 x off (i + 16)
        let in2 ← Simd.loadu_u8 16 x off (i + 32)
        let in3 ← Simd.loadu_u8 16 x off (i + 48)
        emitF32 (n := 16) op (o + 4 * i) ([in0, in1, in2, in3].map
          (fun r => dqReg fz.vec scale zp (cvtepu8_epi32 r (by omega))))) n 0) (fun i m => InvE m0 o 4 R i m ∧ i ≤ n ∧ (∀ j, i ≤ j → j < n → ¬ Spec.InDqGroups isa .uint8 .f32 n j)) := by
    intro h0
    have hgr := fun j => inDq_iff (n := n) (i := j) (show Spec.dqGroup isa .uint8 .f32 = some 64 by rcases h0 with rfl | rfl <;> rfl)
    refine (vecLoopE (c := 64) (by omega) (fun _ => rfl) (fun i hi _ => ?_)).weaken (fun i m h => ⟨h.1, h.2.1, fun j h1 h2 => by rw [hgr]; have := h.2.2; omega⟩)
    refine Triple.loadu_u8 (by omega) (Triple.loadu_u8 (by omega) (Triple.loadu_u8 (by omega) (Triple.loadu_u8 (by omega) ?_)))
    have := emitF32_codes (E := E) (w := w) (m0 := m0) (R := R) (op := op) (scale := scale) (zp := zp)
      (lanes_cvt (toRegs16 (x := x) (off := off) i) (Nat.le_refl 16) rfl) (a := o + 4 * i) rfl (cnt := 64) rfl hlo (by omega)
      (fun k hk => hV (i + k) (by omega) (by rw [hgr]; omega))
    rw [List.map_map] at this
    exact this
  cases isa with
  | avx512f => exact key512 (Or.inl rfl)
  | avx512bf16 => exact key512 (Or.inr rfl)
  | avx2 =>
    have hgr := fun j => inDq_iff (n := n) (i := j) (show Spec.dqGroup .avx2 .uint8 .f32 = some 64 from rfl)
    refine (vecLoopE (c := 64) (by omega) (fun _ => rfl) (fun i hi _ => ?_)).weaken (fun i m h => ⟨h.1, h.2.1, fun j h1 h2 => by rw [hgr]; have := h.2.2; omega⟩)
    refine Triple.loadu_u8 (by omega) (Triple.loadu_u8 (by omega) ?_)
    refine emitF32_codes (g := fun k => qAt x 8 off (i + k)) (Lanes.append (expandAvx2_of (fun j => ?_)) ?_) rfl rfl hlo (by omega)
      (fun k hk => hV (i + k) (by omega) (by rw [hgr]; omega))
    · rw [qAt8]; congr 1; omega
    · refine expandAvx2_of (g := fun k => qAt x 8 off (i + (32 + k))) (fun j => ?_)
      rw [qAt8]; congr 1; omega
  | sse42 =>
    have hgr := fun j => inDq_iff (n := n) (i := j) (show Spec.dqGroup .sse42 .uint8 .f32 = some 64 from rfl)
    refine (vecLoopE (c := 64) (by omega) (fun _ => rfl) (fun i hi _ => ?_)).weaken (fun i m h => ⟨h.1, h.2.1, fun j h1 h2 => by rw [hgr]; have := h.2.2; omega⟩)
    refine Triple.loadu_u8 (by omega) (Triple.loadu_u8 (by omega) (Triple.loadu_u8 (by omega) (Triple.loadu_u8 (by omega) ?_)))
    refine emitF32_codes (g := fun k => qAt x 8 off (i + k)) (Lanes.append (Lanes.append (Lanes.append (expandSse_of (fun j => ?_)) ?_) ?_) ?_)
      rfl rfl hlo (by omega) (fun k hk => hV (i + k) (by omega) (by rw [hgr]; omega))
    · rw [qAt8]; congr 1; omega
    · refine expandSse_of (g := fun k => qAt x 8 off (i + (16 + k))) (fun j => ?_)
      rw [qAt8]; congr 1; omega
    · refine expandSse_of (g := fun k => qAt x 8 off (i + (32 + k))) (fun j => ?_)
      rw [qAt8]; congr 1; omega
    · refine expandSse_of (g := fun k => qAt x 8 off (i + (48 + k))) (fun j => ?_)
      rw [qAt8]; congr 1; omega
  | neon =>
    have hgr := fun j => inDq_iff (n := n) (i := j) (show Spec.dqGroup .neon .uint8 .f32 = some 16 from rfl)
    refine (vecLoopE (c := 16) (by omega) (fun _ => rfl) (fun i hi _ => ?_)).weaken (fun i m h => ⟨h.1, h.2.1, fun j h1 h2 => by rw [hgr]; have := h.2.2; omega⟩)
    refine Triple.loadu_u8 (by omega) ?_
    refine emitF32_codes (g := fun k => qAt x 8 off (i + k)) (expandWords_of (fun j => ?_) (fun j => u8_lt _ _)) rfl rfl hlo (by omega)
      (fun k hk => hV (i + k) (by omega) (by rw [hgr]; omega))
    rw [qAt8]; congr 1; omega
  | portable => exact Triple.ret (fun m h => ⟨h, Nat.zero_le _, fun _ _ _ => not_inDq rfl⟩)

theorem dequantU4F32_triple {isa : Isa} {fz : Fuse} {op : ReduceOp} {scale : F32} {zp : ℤ} (hin : off + (n + 1) / 2 ≤ x.size) (hlo : w.lo ≤ o)
    (hhi : o + 4 * n ≤ w.hi) (hs : ∀ i, i < n → E .ub ∨ inI32 (qAt x 4 off i - zp))
    (hR : ∀ i, i < n → ¬ Spec.InDqGroups isa .uint4 .f32 n i → R i (opF op (rdF m0 (o + 4 * i)) (dqMulT fz.scal scale zp (qAt x 4 off i))).toBits)
    (hV : ∀ i, i < n → Spec.InDqGroups isa .uint4 .f32 n i → R i (opF op (rdF m0 (o + 4 * i)) (dqMulT fz.vec scale zp (qAt x 4 off i))).toBits) :
    Triple E w (InvE m0 o 4 R 0) (dequantU4F32 isa fz op x off o n scale zp) (fun _ => InvE m0 o 4 R n) := by
  unfold dequantU4F32
  refine Triple.bindPost (Q := fun i => InvE m0 o 4 R i) (φ := fun i => i ≤ n ∧ 2 ∣ i ∧ (∀ j, i ≤ j → j < n → ¬ Spec.InDqGroups isa .uint4 .f32 n j)) ?_ (fun i ⟨hi, hd, HG⟩ =>
    dqU4From_triple hi hd hin (fun j hj hj' => putDq32_triple (hs j hj') hlo (by omega) (hR j hj' (HG j hj hj'))))
  have key512 : (isa = .avx512f ∨ isa = .avx512bf16) → Triple E w (InvE m0 o 4 R 0) (forI (fun i => i + 127 < n) 128 (fun i => do
        let packed ← Simd.loadu_u8 64 x off (i / 2)
        let nib := unpackNibbles512 packed
        emitF32 op (o + 4 * i) ((expand512 nib.1 ++ expand512 nib.2).map (dqReg fz.vec scale zp))) n 0)
      (fun i m => InvE m0 o 4 R i m ∧ i ≤ n ∧ 2 ∣ i ∧ (∀ j, i ≤ j → j < n → ¬ Spec.InDqGroups isa .uint4 .f32 n j)) := by
    intro h0
    have hgr := fun j => inDq_iff (n := n) (i := j) (show Spec.dqGroup isa .uint4 .f32 = some 128 by rcases h0 with rfl | rfl <;> rfl)
    refine (vecLoopE (c := 128) (by omega) (fun _ => rfl) (fun i hi hd => ?_)).weaken (fun i m h => ⟨h.1, h.2.1, by omega, fun j h1 h2 => by rw [hgr]; have := h.2.2; omega⟩)
    refine Triple.loadu_u8 (by omega) ?_
    have hn := unpackNibbles512_of (nibs_of (x := x) (off := off) (c := 64) (i := i) (by omega))
    exact emitF32_codes (g := fun k => qAt x 4 off (i + k)) (Lanes.append (expand512_of hn.1)
      (expand512_of (g := fun k => qAt x 4 off (i + (64 + k))) hn.2)) rfl rfl hlo (by omega) (fun k hk => hV (i + k) (by omega) (by rw [hgr]; omega))
  cases isa with
  | avx512f => exact key512 (Or.inl rfl)
  | avx512bf16 => exact key512 (Or.inr rfl)
  | avx2 =>
    have hgr := fun j => inDq_iff (n := n) (i := j) (show Spec.dqGroup .avx2 .uint4 .f32 = some 64 from rfl)
    refine (vecLoopE (c := 64) (by omega) (fun _ => rfl) (fun i hi hd => ?_)).weaken (fun i m h => ⟨h.1, h.2.1, by omega, fun j h1 h2 => by rw [hgr]; have := h.2.2; omega⟩)
    refine Triple.loadu_u8 (by omega) ?_
    have hn := unpackNibblesAvx2_of (nibs_of (x := x) (off := off) (c := 32) (i := i) (by omega))
    exact emitF32_codes (g := fun k => qAt x 4 off (i + k)) (Lanes.append (expandAvx2_of hn.1)
      (expandAvx2_of (g := fun k => qAt x 4 off (i + (32 + k))) hn.2)) rfl rfl hlo (by omega) (fun k hk => hV (i + k) (by omega) (by rw [hgr]; omega))
  | sse42 =>
    have hgr := fun j => inDq_iff (n := n) (i := j) (show Spec.dqGroup .sse42 .uint4 .f32 = some 32 from rfl)
    refine (vecLoopE (c := 32) (by omega) (fun _ => rfl) (fun i hi hd => ?_)).weaken (fun i m h => ⟨h.1, h.2.1, by omega, fun j h1 h2 => by rw [hgr]; have := h.2.2; omega⟩)
    refine Triple.loadu_u8 (by omega) ?_
    have hn := unpackNibblesSse_of (nibs_of (x := x) (off := off) (c := 16) (i := i) (by omega))
    have h256 : ∀ i, qAt x 4 off i < 256 := fun i => lt_of_lt_of_le (Nat.mod_lt _ (by norm_num)) (by norm_num)
    refine Triple.bind (emitF32_codes (i := i) (cnt := 16) (g := fun k => qAt x 4 off (i + k)) (expandWords_of hn.1 (fun j => by rw [hn.1]; exact h256 _))
      rfl rfl hlo (by omega) (fun k hk => hV (i + k) (by omega) (by rw [hgr]; omega))) (fun _ => ?_)
    have := emitF32_codes (E := E) (w := w) (m0 := m0) (R := R) (o := o) (op := op) (scale := scale) (zp := zp) (i := i + 16) (cnt := 16) (a := o + 4 * (i + 16))
      (g := fun k => qAt x 4 off (i + (16 + k)))
      (expandWords_of hn.2 (fun j => by rw [hn.2]; exact h256 _)) rfl rfl hlo (by omega)
      (fun k hk => by rw [Nat.add_assoc]; exact hV (i + (16 + k)) (by omega) (by rw [hgr]; omega))
    exact this
  | neon => exact Triple.ret (fun m h => ⟨h, Nat.zero_le _, ⟨0, rfl⟩, fun _ _ _ => not_inDq rfl⟩)
  | portable => exact Triple.ret (fun m h => ⟨h, Nat.zero_le _, ⟨0, rfl⟩, fun _ _ _ => not_inDq rfl⟩)

theorem dequantU8Bf16_triple {isa : Isa} {fz : Fuse} {op : ReduceOp} {scale : F32} {zp : ℤ} (hin : off + n ≤ x.size) (hlo : w.lo ≤ o)
    (hhi : o + 2 * n ≤ w.hi) (hs : ∀ i, i < n → E .ub ∨ inI32 (qAt x 8 off i - zp))
    (hR : ∀ i, i < n → ¬ Spec.InDqGroups isa .uint8 .bf16 n i → R i (opW op (rdW m0 (o + 2 * i)) (f32ToBf16 (dqMul scale zp (qAt x 8 off i)))))
    (hV : (isa = .avx512f ∨ isa = .avx512bf16) → ∀ i, i < n → Spec.InDqGroups isa .uint8 .bf16 n i →
      R i (cvtB isa (vopB op (dqMulT fz.vec scale zp (qAt x 8 off i)) (rdW m0 (o + 2 * i))))) :
    Triple E w (InvE m0 o 2 R 0) (dequantU8Bf16 isa fz op x off o n scale zp) (fun _ => InvE m0 o 2 R n) := by
  unfold dequantU8Bf16
  refine Triple.bindPost (Q := fun i => InvE m0 o 2 R i) (φ := fun i => i ≤ n ∧ (∀ j, i ≤ j → j < n → ¬ Spec.InDqGroups isa .uint8 .bf16 n j)) ?_ (fun i ⟨hi, HG⟩ =>
    dqU8Loop_triple hi hin (fun j hj hj' => putDq32b_triple (hs j hj') hlo (by omega) (hR j hj' (HG j hj hj'))))
  have hgr := fun (h : isa = .avx512f ∨ isa = .avx512bf16) (j : Nat) => inDq_iff (n := n) (i := j) (show Spec.dqGroup isa .uint8 .bf16 = some 64 by rcases h with rfl | rfl <;> rfl)
  have key512 : (isa = .avx512f ∨ isa = .avx512bf16) → Triple E w (InvE m0 o 2 R 0) (forI (fun i => i + 63 < n) 64 (fun i => do
        let in0 ← Simd.loadu_u8 16 x off (i + 0)
        let in1 ← Simd.loadu_u8 16 x off (i + 16)
        let in2 ← Simd.loadu_u8 16 x off (i + 32)
        let in3 ← Simd.loadu_u8 16 x off (i + 48)
        emitBf16 (n := 16) isa op (o + 2 * i) ([in0, in1, in2, in3].map
          (fun r => dqReg fz.vec scale zp (cvtepu8_epi32 r (by omega))))) n 0) (fun i m => InvE m0 o 2 R i m ∧ i ≤ n ∧ (∀ j, i ≤ j → j < n → ¬ Spec.InDqGroups isa .uint8 .bf16 n j)) := by
    intro h
    refine (vecLoopE (c := 64) (by omega) (fun _ => rfl) (fun i hi _ => ?_)).weaken (fun i m h' => ⟨h'.1, h'.2.1, fun j h1 h2 => by rw [hgr h]; have := h'.2.2; omega⟩)
    refine Triple.loadu_u8 (by omega) (Triple.loadu_u8 (by omega) (Triple.loadu_u8 (by omega) (Triple.loadu_u8 (by omega) ?_)))
    have := Triple.emitBf16 (E := E) (w := w) (m0 := m0) (R := R) (isa := isa) (op := op)
      (lanes_dqReg (scale := scale) (zp := zp) (lanes_cvt (toRegs16 (x := x) (off := off) i) (Nat.le_refl 16) rfl)) (a := o + 2 * i) rfl (cnt := 64) rfl hlo (by omega)
      (fun k hk => hV h (i + k) (by omega) (by rw [hgr h]; omega))
    rw [List.map_map] at this
    exact this
  cases isa with
  | avx512f => exact key512 (Or.inl rfl)
  | avx512bf16 => exact key512 (Or.inr rfl)
  | avx2 => exact Triple.ret (fun m h => ⟨h, Nat.zero_le _, fun _ _ _ => not_inDq rfl⟩)
  | sse42 => exact Triple.ret (fun m h => ⟨h, Nat.zero_le _, fun _ _ _ => not_inDq rfl⟩)
  | neon => exact Triple.ret (fun m h => ⟨h, Nat.zero_le _, fun _ _ _ => not_inDq rfl⟩)
  | portable => exact Triple.ret (fun m h => ⟨h, Nat.zero_le _, fun _ _ _ => not_inDq rfl⟩)

theorem dequantU4Bf16_triple {isa : Isa} {op : ReduceOp} {scale : F32} {zp : ℤ} (hin : off + (n + 1) / 2 ≤ x.size) (hlo : w.lo ≤ o)
    (hhi : o + 2 * n ≤ w.hi) (hs : ∀ i, i < n → E .ub ∨ inI32 (qAt x 4 off i - zp))
    (hR : ∀ i, i < n → ¬ Spec.InDqGroups isa .uint4 .bf16 n i → R i (opW op (rdW m0 (o + 2 * i)) (f32ToBf16 (dqMul scale zp (qAt x 4 off i)))))
    (hV : (isa = .avx512f ∨ isa = .avx512bf16) → ∀ i, i < n → Spec.InDqGroups isa .uint4 .bf16 n i →
      R i (cvtB isa (vopB op (Term.plain (dqFmaV scale zp (qAt x 4 off i))) (rdW m0 (o + 2 * i))))) :
    Triple E w (InvE m0 o 2 R 0) (dequantU4Bf16 isa op x off o n scale zp) (fun _ => InvE m0 o 2 R n) := by
  unfold dequantU4Bf16
  refine Triple.bindPost (Q := fun i => InvE m0 o 2 R i) (φ := fun i => i ≤ n ∧ 2 ∣ i ∧ (∀ j, i ≤ j → j < n → ¬ Spec.InDqGroups isa .uint4 .bf16 n j)) ?_ (fun i ⟨hi, hd, HG⟩ =>
    dqU4From_triple hi hd hin (fun j hj hj' => putDq32b_triple (hs j hj') hlo (by omega) (hR j hj' (HG j hj hj'))))
  have hgr := fun (h : isa = .avx512f ∨ isa = .avx512bf16) (j : Nat) => inDq_iff (n := n) (i := j) (show Spec.dqGroup isa .uint4 .bf16 = some 128 by rcases h with rfl | rfl <;> rfl)
  have key512 : (isa = .avx512f ∨ isa = .avx512bf16) → Triple E w (InvE m0 o 2 R 0) (forI (fun i => i + 127 < n) 128 (fun i => do
        let packed ← Simd.loadu_u8 64 x off (i / 2)
        let nib := unpackNibbles512 packed
        emitBf16 isa op (o + 2 * i) ((expand512 nib.1 ++ expand512 nib.2).map (dqFma scale zp))) n 0)
      (fun i m => InvE m0 o 2 R i m ∧ i ≤ n ∧ 2 ∣ i ∧ (∀ j, i ≤ j → j < n → ¬ Spec.InDqGroups isa .uint4 .bf16 n j)) := by
    intro h
    refine (vecLoopE (c := 128) (by omega) (fun _ => rfl) (fun i hi hd => ?_)).weaken (fun i m h' => ⟨h'.1, h'.2.1, by omega, fun j h1 h2 => by rw [hgr h]; have := h'.2.2; omega⟩)
    refine Triple.loadu_u8 (by omega) ?_
    have hn := unpackNibbles512_of (nibs_of (x := x) (off := off) (c := 64) (i := i) (by omega))
    exact Triple.emitBf16 (lanes_dqFma (g := fun k => qAt x 4 off (i + k)) (Lanes.append (expand512_of hn.1)
      (expand512_of (g := fun k => qAt x 4 off (i + (64 + k))) hn.2))) rfl rfl hlo (by omega) (fun k hk => hV h (i + k) (by omega) (by rw [hgr h]; omega))
  cases isa with
  | avx512f => exact key512 (Or.inl rfl)
  | avx512bf16 => exact key512 (Or.inr rfl)
  | avx2 => exact Triple.ret (fun m h => ⟨h, Nat.zero_le _, ⟨0, rfl⟩, fun _ _ _ => not_inDq rfl⟩)
  | sse42 => exact Triple.ret (fun m h => ⟨h, Nat.zero_le _, ⟨0, rfl⟩, fun _ _ _ => not_inDq rfl⟩)
  | neon => exact Triple.ret (fun m h => ⟨h, Nat.zero_le _, ⟨0, rfl⟩, fun _ _ _ => not_inDq rfl⟩)
  | portable => exact Triple.ret (fun m h => ⟨h, Nat.zero_le _, ⟨0, rfl⟩, fun _ _ _ => not_inDq rfl⟩)

theorem dequantU2Bf16_triple {isa : Isa} {op : ReduceOp} {scale : F32} {zp : ℤ} (hin : off + (n + 3) / 4 ≤ x.size) (hlo : w.lo ≤ o)
    (hhi : o + 2 * n ≤ w.hi)
    (hR : ∀ i, i < n → ¬ Spec.InDqGroups isa .uint2 .bf16 n i → R i (opW op (rdW m0 (o + 2 * i)) (f32ToBf16 (dqStepU2Bf16 (qAt x 2 off i) scale zp))))
    (hV : (isa = .avx512f ∨ isa = .avx512bf16) → ∀ i, i < n → Spec.InDqGroups isa .uint2 .bf16 n i →
      R i (cvtB isa (vopB op (Term.plain (dqFmaV scale zp (qAt x 2 off i))) (rdW m0 (o + 2 * i))))) :
    Triple E w (InvE m0 o 2 R 0) (dequantU2Bf16 isa op x off o n scale zp) (fun _ => InvE m0 o 2 R n) := by
  unfold dequantU2Bf16
  refine Triple.bindPost (Q := fun i => InvE m0 o 2 R i) (φ := fun i => i ≤ n ∧ 4 ∣ i ∧ (∀ j, i ≤ j → j < n → ¬ Spec.InDqGroups isa .uint2 .bf16 n j)) ?_ (fun i ⟨hi, hd, HG⟩ =>
    dqU2From_triple hi hd hin (fun j hj hj' => Triple.putBf16 rfl hlo (by omega) (hR j hj' (HG j hj hj'))))
  have hgr := fun (h : isa = .avx512f ∨ isa = .avx512bf16) (j : Nat) => inDq_iff (n := n) (i := j) (show Spec.dqGroup isa .uint2 .bf16 = some 256 by rcases h with rfl | rfl <;> rfl)
  have do16 : (isa = .avx512f ∨ isa = .avx512bf16) → ∀ s b, 4 * s = b → b + 64 ≤ n / 256 * 256 →
      Triple E w (InvE m0 o 2 R b) ((Simd.loadu_u8 16 x off s).bind (fun b' => emitBf16 (n := 16) isa op (o + 2 * b) ((unpackCrumbs b').map
        (fun z => dqFma scale zp (cvtepu8_epi32 z (by omega)))))) (fun _ => InvE m0 o 2 R (b + 64)) := by
    intro h s b hsb hb
    have hle : n / 256 * 256 ≤ n := Nat.div_mul_le_self _ _
    refine Triple.loadu_u8 (by omega) ?_
    have := Triple.emitBf16 (E := E) (w := w) (m0 := m0) (R := R) (isa := isa) (op := op) (i := b)
      (lanes_dqFma (scale := scale) (zp := zp) (lanes_cvt (unpackCrumbs_of (crumbs_of (x := x) (off := off) hsb)) (Nat.le_refl 16) rfl))
      (a := o + 2 * b) rfl (cnt := 64) rfl hlo (by omega) (fun k hk => hV h (b + k) (by omega) (by rw [hgr h]; omega))
    rw [List.map_map] at this
    exact this
  have key512 : (isa = .avx512f ∨ isa = .avx512bf16) → Triple E w (InvE m0 o 2 R 0) (forI (fun i => i + 255 < n) 256 (fun i => do
        (Simd.loadu_u8 16 x off (i / 4)).bind (fun b' => emitBf16 (n := 16) isa op (o + 2 * i) ((unpackCrumbs b').map
          (fun z => dqFma scale zp (cvtepu8_epi32 z (by omega)))))
        (Simd.loadu_u8 16 x off (i / 4 + 16)).bind (fun b' => emitBf16 (n := 16) isa op (o + 2 * (i + 64)) ((unpackCrumbs b').map
          (fun z => dqFma scale zp (cvtepu8_epi32 z (by omega)))))
        (Simd.loadu_u8 16 x off (i / 4 + 32)).bind (fun b' => emitBf16 (n := 16) isa op (o + 2 * (i + 128)) ((unpackCrumbs b').map
          (fun z => dqFma scale zp (cvtepu8_epi32 z (by omega)))))
        (Simd.loadu_u8 16 x off (i / 4 + 48)).bind (fun b' => emitBf16 (n := 16) isa op (o + 2 * (i + 192)) ((unpackCrumbs b').map
          (fun z => dqFma scale zp (cvtepu8_epi32 z (by omega)))))) n 0)
      (fun i m => InvE m0 o 2 R i m ∧ i ≤ n ∧ 4 ∣ i ∧ (∀ j, i ≤ j → j < n → ¬ Spec.InDqGroups isa .uint2 .bf16 n j)) := by
    intro h
    refine (vecLoopE (c := 256) (by omega) (fun _ => rfl) (fun i hi hd => ?_)).weaken (fun i m h' => ⟨h'.1, h'.2.1, by omega, fun j h1 h2 => by rw [hgr h]; have := h'.2.2; omega⟩)
    refine Triple.bind (do16 h _ _ (by omega) (by omega)) (fun _ => ?_)
    refine Triple.bind (do16 h _ _ (by omega) (by omega)) (fun _ => ?_)
    refine Triple.bind (do16 h _ _ (by omega) (by omega)) (fun _ => ?_)
    exact do16 h _ _ (by omega) (by omega)
  cases isa with
  | avx512f => exact key512 (Or.inl rfl)
  | avx512bf16 => exact key512 (Or.inr rfl)
  | avx2 => exact Triple.ret (fun m h => ⟨h, Nat.zero_le _, ⟨0, rfl⟩, fun _ _ _ => not_inDq rfl⟩)
  | sse42 => exact Triple.ret (fun m h => ⟨h, Nat.zero_le _, ⟨0, rfl⟩, fun _ _ _ => not_inDq rfl⟩)
  | neon => exact Triple.ret (fun m h => ⟨h, Nat.zero_le _, ⟨0, rfl⟩, fun _ _ _ => not_inDq rfl⟩)
  | portable => exact Triple.ret (fun m h => ⟨h, Nat.zero_le _, ⟨0, rfl⟩, fun _ _ _ => not_inDq rfl⟩)


/-- Every worker of a dequantize call, with the position of every element. -/
theorem dequantGenericAt_triple {isa : Isa} {fz : Fuse} {dt : DType} {ft : FT} {op : ReduceOp} {scale : F32} {zp : ℤ} (hdt : dt.isQuant = true)
    (hin : off + (dt.bits * n + 7) / 8 ≤ x.size) (hin2 : dt = .uint2 → ft = .f32 → off + n / 4 + 1 ≤ x.size) (hlo : w.lo ≤ o)
    (hhi : o + ft.size * n ≤ w.hi) (hs : ∀ i, i < n → E .ub ∨ DqRange dt ft zp (qAt x dt.bits off i))
    (hR : ∀ i v, i < n → DqElemAt isa fz dt ft op scale zp m0 o n (Spec.InDqGroups isa dt ft.dtype n i) i (qAt x dt.bits off i) v → R i v) :
    Triple E w (InvE m0 o ft.size R 0) (dequantGeneric isa fz dt ft op x off o n scale zp) (fun _ => InvE m0 o ft.size R n) := by
  cases ft <;> cases dt <;> first | (cases hdt; done) | skip
  · show Triple E w (InvE m0 o 4 R 0) (dequantUint2 (putDq64 fz.gen op o scale zp) (putDq64 fz.gen .set o scale zp) x off n) (fun _ => InvE m0 o 4 R n)
    have hhi' : o + 4 * n ≤ w.hi := hhi
    have hs' : ∀ i, i < n → E .ub ∨ inI64 (qAt x 2 off i - zp) := fun i hi => by simpa only [DqRange, DType.bits] using hs i hi
    have hR' : ∀ i v, i < n → v = (opF (if DType.uint2 = .uint2 ∧ n / 4 * 4 ≤ i then .set else op) (rdF m0 (o + 4 * i))
        (Term.prod fz.gen (Flt.ofInt f32 (qAt x 2 off i - zp)) scale)).toBits → R i v := fun i v hi h =>
      hR i v hi ⟨_, Or.inl ⟨rfl, rfl⟩, h⟩
    refine dequantUint2_triple (hin2 rfl rfl) (fun i hi hi' => ?_) (fun i hi hi' => ?_)
    · refine putDq64_triple (hs' i hi) hlo (by omega) (hR' _ _ hi ?_)
      rw [if_neg (by omega)]
    · refine putDq64_triple (hs' i hi) hlo (by omega) (hR' _ _ hi ?_)
      rw [if_pos ⟨rfl, hi'⟩]
  · have hin' : off + (n + 1) / 2 ≤ x.size := by simp only [DType.bits] at hin; omega
    exact dequantU4F32_triple hin' hlo hhi hs
      (fun i hi hg => hR i _ hi ⟨fz.scal, Or.inr (Or.inr ⟨by decide, hg, rfl⟩), by rw [if_neg (fun h => by cases h.1)]; rfl⟩)
      (fun i hi hg => hR i _ hi ⟨fz.vec, Or.inr (Or.inl ⟨by decide, hg, rfl⟩), by rw [if_neg (fun h => by cases h.1)]; rfl⟩)
  · have hin' : off + n ≤ x.size := by simp only [DType.bits] at hin; omega
    exact dequantU8F32_triple hin' hlo hhi hs
      (fun i hi hg => hR i _ hi ⟨fz.scal, Or.inr (Or.inr ⟨by decide, hg, rfl⟩), by rw [if_neg (fun h => by cases h.1)]; rfl⟩)
      (fun i hi hg => hR i _ hi ⟨fz.vec, Or.inr (Or.inl ⟨by decide, hg, rfl⟩), by rw [if_neg (fun h => by cases h.1)]; rfl⟩)
  · have hin' : off + (n + 3) / 4 ≤ x.size := by simp only [DType.bits] at hin; omega
    exact dequantU2Bf16_triple hin' hlo hhi (fun i hi hg => hR i _ hi (Or.inl ⟨hg, rfl⟩)) (fun h i hi hg => hR i _ hi (Or.inr ⟨hg, h, rfl⟩))
  · have hin' : off + (n + 1) / 2 ≤ x.size := by simp only [DType.bits] at hin; omega
    exact dequantU4Bf16_triple hin' hlo hhi hs (fun i hi hg => hR i _ hi (Or.inl ⟨hg, rfl⟩)) (fun h i hi hg => hR i _ hi (Or.inr ⟨hg, h, rfl⟩))
  · have hin' : off + n ≤ x.size := by simp only [DType.bits] at hin; omega
    exact dequantU8Bf16_triple hin' hlo hhi hs (fun i hi hg => hR i _ hi (Or.inl ⟨hg, rfl⟩)) (fun h i hi hg => hR i _ hi (Or.inr ⟨hg, h, rfl⟩))

/-- Every worker of a dequantize call. -/
theorem dequantGeneric_triple {isa : Isa} {fz : Fuse} {dt : DType} {ft : FT} {op : ReduceOp} {scale : F32} {zp : ℤ} (hdt : dt.isQuant = true)
    (hin : off + (dt.bits * n + 7) / 8 ≤ x.size) (hin2 : dt = .uint2 → ft = .f32 → off + n / 4 + 1 ≤ x.size) (hlo : w.lo ≤ o)
    (hhi : o + ft.size * n ≤ w.hi) (hs : ∀ i, i < n → E .ub ∨ DqRange dt ft zp (qAt x dt.bits off i))
    (hR : ∀ i v, i < n → DqElem isa fz dt ft op scale zp m0 o n i (qAt x dt.bits off i) v → R i v) :
    Triple E w (InvE m0 o ft.size R 0) (dequantGeneric isa fz dt ft op x off o n scale zp) (fun _ => InvE m0 o ft.size R n) :=
  dequantGenericAt_triple hdt hin hin2 hlo hhi hs (fun i v hi h => hR i v hi h.elem)

end
end Verif
