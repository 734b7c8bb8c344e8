import Verif.Props.Examples
import Verif.Props.Isolate
import Verif.Props.QuantNeg
import Verif.Props.Dequant2

/-!
# Calls on parts of a tensor: C67
-/

namespace Verif.Props
open Spec

variable {c c' : Ctx} {x x' : InBuf} {dtIn dtIn' dtOut : DType} {n n' o o' : Nat} {scale τ : F32} {zp : ℤ} {mode : RoundMode} {m0 m0' : Mem} {g : Nat → Nat}

/-- The element `i` of the second tensor is the element `g i` of the first: a slice, a permutation, a copy in the other
float type, a selection with repetitions. -/
def Picks (dtIn' : DType) (x' : InBuf) (n' : Nat) (dtIn : DType) (x : InBuf) (n : Nat) (g : Nat → Nat) : Prop :=
  ∀ i, i < n' → g i < n ∧ elem dtIn' x'.data 0 i = elem dtIn x.data 0 (g i)

/-- C67, quantization: quantizing a selection of the elements gives that selection of the codes.  Any two kernel sets,
thread counts, schedules, output addresses, and either rounding mode (with the same threshold).  Missing: scaled values of
exactly plus or minus the float below one half on x86 vector kernels (`C67_false_vector_tail`). -/
theorem C67_quantize_selection_partial (h : QArgs c.threads x dtIn dtOut n) (h' : QArgs c'.threads x' dtIn' dtOut n') (hg : Picks dtIn' x' n' dtIn x n g) (hz : Zp32 zp)
    (hd : ∀ i, i < n → Defined mode τ (scaled (elem dtIn x.data 0 i) scale) zp)
    (hx : (ExactKernel c.isa dtIn dtOut mode ∧ ExactKernel c'.isa dtIn' dtOut mode) ∨ (|zp| ≤ 2 ^ 22 ∧ ∀ i, i < n → |(scaled (elem dtIn x.data 0 i) scale).toRat| ≠ predHalf)) :
    Always NoFault (quantize c x dtIn o (bytes dtOut.bits n) dtOut scale zp mode τ) (span o (bytes dtOut.bits n)) m0 (fun m =>
      Always NoFault (quantize c' x' dtIn' o' (bytes dtOut.bits n') dtOut scale zp mode τ) (span o' (bytes dtOut.bits n')) m0' (fun m' =>
        ∀ i, i < n' → code dtOut.bits m' o' i = code dtOut.bits m o (g i))) := by
  refine (quantize_vals h hz hd (hx.imp (fun h => h.1) (fun h => h.1))).mono (fun _ h => h) (fun m hm => ?_)
  have hd' : ∀ i, i < n' → Defined mode τ (scaled (elem dtIn' x'.data 0 i) scale) zp := fun i hi => by
    rw [(hg i hi).2]; exact hd _ (hg i hi).1
  refine (quantize_vals h' hz hd' (hx.imp (fun h => h.2) (fun h => h.1))).mono (fun _ h => h) (fun m' hm' i hi => ?_)
  obtain ⟨hgi, he⟩ := hg i hi
  have v1 : (code dtOut.bits m o (g i) : ℤ) = sat dtOut.bits (rounded mode τ.toRat (scaled (elem dtIn x.data 0 (g i)) scale).toRat + zp) := by
    rcases hm.1 _ hgi with q | ⟨q1, q2, _⟩
    · exact q
    · rcases hx with hx | hx
      · exact absurd hx.1 q1
      · exact absurd q2 (hx.2 _ hgi)
  have v2 : (code dtOut.bits m' o' i : ℤ) = sat dtOut.bits (rounded mode τ.toRat (scaled (elem dtIn x.data 0 (g i)) scale).toRat + zp) := by
    rw [← he]
    rcases hm'.1 _ hi with q | ⟨q1, q2, _⟩
    · exact q
    · rcases hx with hx | hx
      · exact absurd hx.2 q1
      · rw [he] at q2; exact absurd q2 (hx.2 _ hgi)
  rw [← v1] at v2
  exact_mod_cast v2

/-- `C67_quantize_selection_partial` applied to a concrete case. -/
example := C67_quantize_selection_partial (c := Ex.c1) (c' := Ex.c2) (x := Ex.many) (x' := Ex.manyRev) (dtIn := .f32) (dtIn' := .f32) (dtOut := .uint8)
    (n := 70) (n' := 70) (o := 1000) (o' := 3000) (scale := Ex.tenth) (τ := Ex.quarter) (zp := 64) (mode := .nearest) (m0 := Ex.old) (m0' := Ex.old)
    (g := (fun i => 69 - i)) (h := by wit) (h' := by wit) (hg := by unfold Picks; decide +kernel) (hz := by wit) (hd := by wit) (hx := by wit)

/-- C67, any data at all (NaN, infinities, huge values) on the scalar code paths: when both calls finish, the codes agree. -/
theorem C67_quantize_selection_any_data_partial (h : QArgs c.threads x dtIn dtOut n) (h' : QArgs c'.threads x' dtIn dtOut n') (hg : Picks dtIn x' n' dtIn x n g)
    (hk : (c.isa = .portable ∧ c'.isa = .portable) ∨ mode = .stochastic ∨ (dtIn = .f32 ∧ dtOut = .uint2)) :
    Always OnlyUb (quantize c x dtIn o (bytes dtOut.bits n) dtOut scale zp mode τ) (span o (bytes dtOut.bits n)) m0 (fun m =>
      Always OnlyUb (quantize c' x' dtIn o' (bytes dtOut.bits n') dtOut scale zp mode τ) (span o' (bytes dtOut.bits n')) m0' (fun m' =>
        ∀ i, i < n' → code dtOut.bits m' o' i = code dtOut.bits m o (g i))) := by
  have key : ∀ {isa : Isa} {ft : FT} {v : F32} {q : Nat}, (isa = .portable ∨ mode = .stochastic ∨ (ft.dtype = .f32 ∧ dtOut = .uint2)) →
      ElemCode isa ft dtOut mode scale τ zp v q → scalarStep ft dtOut mode scale τ zp v = .ret q := by
    intro isa ft v q hk hc
    rcases hc with hc | ⟨hm, hf, hc⟩
    · exact hc
    · exfalso
      rcases hk with hk | hk | ⟨hk, hk2⟩
      · rcases hc with ⟨hc, _⟩ | ⟨hc, _⟩
        · exact hc hk
        · rw [hk] at hc; cases hc
      · rw [hm] at hk; cases hk
      · apply hf; refine ⟨?_, hk2⟩
        cases ft
        · rfl
        · cases hk
  obtain ⟨js, e, _, q⟩ := quantize_ub (o := o) (scale := scale) (τ := τ) (zp := zp) (mode := mode) h m0
  refine ⟨js, e, q.safe, q.raceFree, q.progress, q.bounded, fun k d hr hd => ?_⟩
  obtain ⟨js', e', _, q'⟩ := quantize_ub (o := o') (scale := scale) (τ := τ) (zp := zp) (mode := mode) h' m0'
  refine ⟨js', e', q'.safe, q'.raceFree, q'.progress, q'.bounded, fun k' d' hr' hd' i hi => ?_⟩
  obtain ⟨hgi, he⟩ := hg i hi
  obtain ⟨ft, hft, hc⟩ := (q.post k d hr hd).1.1 (g i) hgi
  obtain ⟨ft', hft', hc'⟩ := (q'.post k' d' hr' hd').1.1 i hi
  have : ft' = ft := by rw [hft] at hft'; cases ft <;> cases ft' <;> first | rfl | cases hft'
  subst this
  rw [he] at hc'
  have a1 := key (hk.imp (fun h => h.1) (fun h => h.imp (fun h => h) (fun h => ⟨hft' ▸ h.1, h.2⟩))) hc
  have a2 := key (hk.imp (fun h => h.2) (fun h => h.imp (fun h => h) (fun h => ⟨hft' ▸ h.1, h.2⟩))) hc'
  rw [a1] at a2
  injection a2 with a2
  exact a2.symm

/-- `C67_quantize_selection_any_data_partial` applied to a concrete case. -/
example := C67_quantize_selection_any_data_partial (c := Ex.c2) (c' := ⟨.portable, 4, .none⟩) (x := Ex.many) (x' := Ex.manyRev) (dtIn := .f32)
    (dtOut := .uint8) (n := 70) (n' := 70) (o := 1000) (o' := 3000) (scale := Ex.tenth) (τ := Ex.quarter) (zp := 64) (mode := .stochastic)
    (m0 := Ex.old) (m0' := Ex.old) (g := (fun i => 69 - i)) (h := by wit) (h' := by wit) (hg := by unfold Picks; decide +kernel) (hk := by wit)

/-- The part of a float buffer from element `k` on. -/
def slice (dt : DType) (x : InBuf) (k l : Nat) : InBuf := ⟨dt.stride * l, fun a => x.data (dt.stride * k + a)⟩

theorem slice_picks (hdt : dtIn.isQuant = false) {k l : Nat} (hl : k + l ≤ n) : Picks dtIn (slice dtIn x k l) l dtIn x n (fun i => k + i) := by
  intro i hi
  refine ⟨show k + i < n by omega, ?_⟩
  cases dtIn <;> simp only [DType.isQuant, Bool.true_eq_false] at hdt
  · simp only [slice, elem, f32At, DType.stride, Nat.zero_add, show 4 * k + 4 * i = 4 * (k + i) by ring, ← Nat.add_assoc]
  · simp only [slice, elem, bf16At, u16At, DType.stride, Nat.zero_add, show 2 * k + 2 * i = 2 * (k + i) by ring, ← Nat.add_assoc]

/-- C67, in bytes: a tensor quantized piece by piece - the first `k` elements filling whole bytes, then the rest, each
piece with its own context - gives the bytes of the whole tensor quantized at once. -/
theorem C67_quantize_in_pieces_partial {c1 c2 : Ctx} {o1 o2 k l : Nat} {m1 m2 : Mem} (h : QArgs c.threads x dtIn dtOut (k + l)) (hk : dtOut.bits * k % 8 = 0)
    (s1 : Sizes k c1.threads) (s2 : Sizes l c2.threads) (hz : |zp| ≤ 2 ^ 22)
    (hd : ∀ i, i < k + l → Defined mode τ (scaled (elem dtIn x.data 0 i) scale) zp ∧ |(scaled (elem dtIn x.data 0 i) scale).toRat| ≠ predHalf) :
    Always NoFault (quantize c x dtIn o (bytes dtOut.bits (k + l)) dtOut scale zp mode τ) (span o (bytes dtOut.bits (k + l))) m0 (fun m =>
      Always NoFault (quantize c1 (slice dtIn x 0 k) dtIn o1 (bytes dtOut.bits k) dtOut scale zp mode τ) (span o1 (bytes dtOut.bits k)) m1 (fun m1' =>
        Always NoFault (quantize c2 (slice dtIn x k l) dtIn o2 (bytes dtOut.bits l) dtOut scale zp mode τ) (span o2 (bytes dtOut.bits l)) m2 (fun m2' =>
          (∀ j, j < bytes dtOut.bits k → m1' (o1 + j) = m (o + j)) ∧
          (∀ j, j < bytes dtOut.bits l → m2' (o2 + j) = m (o + bytes dtOut.bits k + j))))) := by
  have hz' : Zp32 zp := by have := abs_le.mp hz; norm_num at this; constructor <;> norm_num <;> omega
  have ho := h.outQuant
  have hin := h.inFloat
  have val : ∀ {c : Ctx} {y : InBuf} {N o : Nat} {m0 : Mem} (_ : QArgs c.threads y dtIn dtOut N) (_ : ∀ i, i < N → Defined mode τ (scaled (elem dtIn y.data 0 i) scale) zp ∧ |(scaled (elem dtIn y.data 0 i) scale).toRat| ≠ predHalf),
      Always NoFault (quantize c y dtIn o (bytes dtOut.bits N) dtOut scale zp mode τ) (span o (bytes dtOut.bits N)) m0 (fun m =>
        (∀ i, i < N → (code dtOut.bits m o i : ℤ) = sat dtOut.bits (rounded mode τ.toRat (scaled (elem dtIn y.data 0 i) scale).toRat + zp)) ∧
        (∀ t, dtOut.bits * N ≤ t → t < 8 * bytes dtOut.bits N → bit m o t = 0) ∧ (∀ j, j < bytes dtOut.bits N → m (o + j) < 256)) := by
    intro c y N o m0 hq hd
    refine (quantize_vals hq hz' (fun i hi => (hd i hi).1) (Or.inr hz)).mono (fun _ h => h) (fun m hm => ⟨fun i hi => ?_, hm.2⟩)
    rcases hm.1 i hi with q | ⟨_, q, _⟩
    · exact q
    · exact absurd q (hd i hi).2
  have p1 : Picks dtIn (slice dtIn x 0 k) k dtIn x (k + l) (fun i => 0 + i) := slice_picks hin (by omega)
  have p2 : Picks dtIn (slice dtIn x k l) l dtIn x (k + l) (fun i => k + i) := slice_picks hin (by omega)
  have q1 : ∀ i, i < k → elem dtIn (slice dtIn x 0 k).data 0 i = elem dtIn x.data 0 i := fun i hi => by have := (p1 i hi).2; simpa only [Nat.zero_add] using this
  have q2 : ∀ i, i < l → elem dtIn (slice dtIn x k l).data 0 i = elem dtIn x.data 0 (k + i) := fun i hi => (p2 i hi).2
  refine (val h hd).mono (fun _ h => h) (fun m ⟨g1, g2, g3⟩ => ?_)
  refine (val ⟨hin, ho, rfl, s1⟩ (fun i hi => by rw [q1 i hi]; exact hd _ (by omega))).mono (fun _ h => h) (fun m1' ⟨f1, f2, f3⟩ => ?_)
  refine (val ⟨hin, ho, rfl, s2⟩ (fun i hi => by rw [q2 i hi]; exact hd _ (by omega))).mono (fun _ h => h) (fun m2' ⟨e1, e2, e3⟩ => ?_)
  have hbk : 8 * bytes dtOut.bits k = dtOut.bits * k := by unfold bytes; omega
  have hbl : bytes dtOut.bits (k + l) = bytes dtOut.bits k + bytes dtOut.bits l := by unfold bytes; rw [Nat.mul_add]; omega
  constructor
  · refine pack_ext ho (fun i hi => ?_) f2 (fun t h1 h2 => by omega) f3 (fun j hj => g3 j (by omega))
    have a := f1 i hi
    have b := g1 i (by omega)
    rw [q1 i hi, ← b] at a
    exact_mod_cast a
  · refine pack_ext ho (o' := o + bytes dtOut.bits k) (fun i hi => ?_) e2 (fun t h1 h2 => ?_) e3 (fun j hj => by rw [Nat.add_assoc]; exact g3 _ (by omega))
    · have a := e1 i hi
      have b := g1 (k + i) (by omega)
      rw [q2 i hi, ← b] at a
      have hcode : code dtOut.bits m (o + bytes dtOut.bits k) i = code dtOut.bits m o (k + i) := by
        unfold code
        rw [Nat.mul_add, ← hbk]
        congr 2
        · congr 1; omega
        · congr 1; omega
      rw [hcode]
      exact_mod_cast a
    · have := g2 (dtOut.bits * k + t) (by rw [Nat.mul_add]; omega) (by omega)
      rw [← this]
      unfold bit
      rw [← hbk]
      congr 2
      · congr 1; omega
      · congr 1; omega

/-- `C67_quantize_in_pieces_partial` applied to a concrete case. -/
example := C67_quantize_in_pieces_partial (c := Ex.c1) (x := Ex.many) (dtIn := .f32) (dtOut := .uint4) (o := 1000) (scale := Ex.tenth)
    (τ := Ex.quarter) (zp := 7) (mode := .nearest) (m0 := Ex.old) (c1 := Ex.c2) (c2 := Ex.c3) (o1 := 3000) (o2 := 5000) (k := 40) (l := 30)
    (m1 := Ex.old) (m2 := Ex.old) (h := by wit) (hk := by wit) (s1 := by wit) (s2 := by wit) (hz := by wit) (hd := by wit)

/-- C67, dequantization to float32: a selection of the codes gives that selection of the values. -/
theorem C67_dequantize_selection (h : DArgs c.threads x dtIn .f32 n) (h' : DArgs c'.threads x' dtIn .f32 n') (hr : Readable dtIn .f32 n x.size) (hr' : Readable dtIn .f32 n' x'.size)
    (hg : ∀ i, i < n' → g i < n ∧ code dtIn.bits x'.data 0 i = code dtIn.bits x.data 0 (g i)) (hz : ZpSub zp) :
    Always NoFault (dequantize c x (bytes dtIn.bits n) dtIn o (4 * n) .f32 scale zp .set) (span o (4 * n)) m0 (fun m =>
      Always NoFault (dequantize c' x' (bytes dtIn.bits n') dtIn o' (4 * n') .f32 scale zp .set) (span o' (4 * n')) m0' (fun m' =>
        ∀ i, i < n' → f32At m' (o' + 4 * i) = f32At m (o + 4 * g i))) := by
  refine (C09_dequantize_f32_formula h hr hz).mono (fun _ h => h) (fun m hm => ?_)
  refine (C09_dequantize_f32_formula h' hr' hz).mono (fun _ h => h) (fun m' hm' i hi => ?_)
  rw [hm' i hi, hm _ (hg i hi).1, (hg i hi).2]

/-- `C67_dequantize_selection` applied to a concrete case. -/
example := C67_dequantize_selection (c := Ex.c1) (c' := Ex.c2) (x := Ex.codes) (x' := Ex.codesRev) (dtIn := .uint8) (n := 70) (n' := 70) (o := 1000)
    (o' := 3000) (scale := Ex.tenth) (zp := 7) (m0 := Ex.old) (m0' := Ex.old) (g := (fun i => 69 - i)) (h := by wit) (h' := by wit) (hr := by wit)
    (hr' := by wit) (hg := by wit) (hz := by wit)

/-- C67 is false on the vector kernels: seventeen times the float below one half, quantized at once (AVX-512, one thread)
and the first of them quantized alone, on the same machine: code 1 in the whole tensor, code 0 alone. -/
theorem C67_false_vector_tail :
    Picks .f32 (slice .f32 (ph 17) 0 1) 1 .f32 (ph 17) 17 (fun i => 0 + i) ∧
    Always NoFault (quantize ⟨.avx512f, 1, .none⟩ (ph 17) .f32 64 9 .uint4 f1 0 .nearest f0) (span 64 9) Ex.old (fun m => code 4 m 64 0 = 1) ∧
    Always NoFault (quantize ⟨.avx512f, 1, .none⟩ (slice .f32 (ph 17) 0 1) .f32 64 1 .uint4 f1 0 .nearest f0) (span 64 1) Ex.old (fun m => code 4 m 64 0 = 0) := by
  refine ⟨slice_picks rfl (by norm_num), ?_, ?_⟩
  · refine (quantize_result (dtOut := .uint4) (n := 17) (l := [17, 17, 17, 17, 17, 17, 17, 17, 0]) (ph_args rfl (sz 17 1)) (by decide +kernel)).mono (fun _ h => h) (fun m hm => ?_)
    have : m 64 = 17 := (List.cons.inj hm).1
    unfold code; rw [show 64 + 4 * 0 / 8 = 64 by norm_num, this]; norm_num
  · have hq : QArgs 1 (slice .f32 (ph 17) 0 1) .f32 .uint4 1 := ⟨rfl, rfl, rfl, sz 1 1⟩
    refine (quantize_result (c := ⟨.avx512f, 1, .none⟩) (dtOut := .uint4) (n := 1) (l := [0]) hq (by decide +kernel)).mono (fun _ h => h) (fun m hm => ?_)
    have : m 64 = 0 := (List.cons.inj hm).1
    unfold code; rw [show 64 + 4 * 0 / 8 = 64 by norm_num, this]; norm_num

/-- The hypotheses of the piecewise theorem on the tensor 0.5, 1.5, 2.5, -1.0, 3.0, cut after four elements, uint4, scale 1. -/
example : QArgs 3 (Ex.buf (Ex.words32 [0x3f000000, 0x3fc00000, 0x40200000, 0xbf800000, 0x40400000])) .f32 .uint4 (4 + 1) ∧ DType.uint4.bits * 4 % 8 = 0 ∧
    ∀ i, i < 4 + 1 → Defined .nearest f0 (scaled (elem .f32 (Ex.buf (Ex.words32 [0x3f000000, 0x3fc00000, 0x40200000, 0xbf800000, 0x40400000])).data 0 i) f1) 2 ∧
      |(scaled (elem .f32 (Ex.buf (Ex.words32 [0x3f000000, 0x3fc00000, 0x40200000, 0xbf800000, 0x40400000])).data 0 i) f1).toRat| ≠ predHalf :=
  ⟨⟨rfl, rfl, rfl, sz 5 3⟩, by decide, by decide +kernel⟩

/-- A permuted copy of 1.0, 2.0 stored as bfloat16 picks elements of the float32 tensor. -/
example : Picks .bf16 (Ex.buf (Ex.words16 [0x4000, 0x3f80, 0x4000])) 3 .f32 (Ex.buf (Ex.words32 [0x3f800000, 0x40000000])) 2 (fun i => (i + 1) % 2) := by
  unfold Picks; decide +kernel

end Verif.Props
