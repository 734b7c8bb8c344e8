import Verif.Props.Transcode

/-!
# Changing the type and the zero point of codes on the same scale: C113
-/

namespace Verif.Props
open Spec

section
variable {c c' : Ctx} {x : InBuf} {dt dt' : DType} {n o o' : Nat} {s τ : F32} {z z' : ℤ} {m0 m0' : Mem}

/-- C113. Dequantizing codes to float32 and quantizing the result (nearest) with the same scale, but another type and zero point, is exact integer arithmetic on the codes:
`q` becomes `q - z + z'`, clamped to the new type's range.  Every kernel, thread count and schedule of both calls. -/
theorem C113_recode (h : DArgs c.threads x dt .f32 n) (hr : Readable dt .f32 n x.size) (hdt' : dt'.isQuant = true) (h' : Sizes n c'.threads) (h1 : 1 / 2 ^ 126 ≤ s.toRat)
    (h2 : s.toRat ≤ 2 ^ 119) (hz : 0 ≤ z ∧ z ≤ 2 ^ dt.bits - 1) (hz' : |z'| ≤ 2 ^ 22) :
    Always NoFault (dequantize c x (bytes dt.bits n) dt o (4 * n) .f32 s z .set) (span o (4 * n)) m0 (fun m =>
      Always NoFault (quantize c' ⟨4 * n, fun a => m (o + a)⟩ .f32 o' (bytes dt'.bits n) dt' s z' .nearest τ) (span o' (bytes dt'.bits n)) m0' (fun m' =>
        ∀ i, i < n → (code dt'.bits m' o' i : ℤ) = sat dt'.bits (code dt.bits x.data 0 i - z + z'))) := by
  have hf : s.isFin = true := clip_fin h1 h2
  have hQ := qmax_bounds h.inQuant
  have hzs : ZpSub z := by unfold ZpSub; norm_num; omega
  have hza := abs_le.mp hz'
  norm_num at hza
  refine (C09_dequantize_f32_formula h hr hzs).mono (fun _ h => h) (fun m hm => ?_)
  have hk : ∀ i, |((code dt.bits x.data 0 i : ℕ) : ℤ) - z| ≤ 255 := fun i => by
    have := code_lt256 h.inQuant x.data 0 i; rw [abs_le]; omega
  have key : ∀ i, i < n → (scaled (elem .f32 (fun a => m (o + a)) 0 i) s).isFin = true ∧
      |(scaled (elem .f32 (fun a => m (o + a)) 0 i) s).toRat - (((code dt.bits x.data 0 i : ℕ) : ℤ) - z : ℤ)| ≤ 1 / 2 ^ 13 := by
    intro i hi
    have e : elem .f32 (fun a => m (o + a)) 0 i = dequant s z (code dt.bits x.data 0 i) := by
      show f32At (fun a => m (o + a)) (0 + 4 * i) = _
      rw [f32At_shift, Nat.zero_add, hm i hi]
    rw [e]
    exact rescaled_near (hk i) hf h1 h2
  have hrha : ∀ i, i < n → rha (scaled (elem .f32 (fun a => m (o + a)) 0 i) s).toRat = ((code dt.bits x.data 0 i : ℕ) : ℤ) - z := fun i hi =>
    rha_near (lt_of_le_of_lt (key i hi).2 (by norm_num))
  have hfits : ∀ i, i < n → Fits 32 (scaled (elem .f32 (fun a => m (o + a)) 0 i) s) z' := fun i hi => by
    have := abs_le.mp (hk i)
    refine ⟨(key i hi).1, ?_, ?_⟩ <;> rw [hrha i hi] <;> norm_num <;> omega
  refine (C07_vector_nearest (c := c') ⟨rfl, hdt', rfl, h'⟩ hz' hfits).mono (fun _ h => h) (fun m' hm' i hi => ?_)
  rcases hm' i hi with g | ⟨g, _⟩
  · rw [hrha i hi] at g
    exact g
  · exfalso
    obtain ⟨k, hkz⟩ : ∃ k : ℤ, k = ((code dt.bits x.data 0 i : ℕ) : ℤ) - z := ⟨_, rfl⟩
    have e := (key i hi).2
    rw [← hkz] at e
    have e1 : ((|k| : ℤ) : ℚ) = |(k:ℚ)| := Int.cast_abs
    have e2 : |(k:ℚ)| ≤ predHalf + 1 / 2 ^ 13 := by
      have := abs_add_le ((k:ℚ) - (scaled (elem .f32 (fun a => m (o + a)) 0 i) s).toRat) (scaled (elem .f32 (fun a => m (o + a)) 0 i) s).toRat
      rw [sub_add_cancel, g, abs_sub_comm] at this
      linarith
    have e3 : |k| < 1 := by
      have : ((|k| : ℤ) : ℚ) < 1 := by
        rw [e1]; refine lt_of_le_of_lt e2 ?_
        unfold predHalf; norm_num
      exact_mod_cast this
    have e4 : k = 0 := Int.abs_lt_one_iff.mp e3
    rw [e4, Int.cast_zero, sub_zero, g] at e
    unfold predHalf at e; norm_num at e

/-- `C113_recode` applied to a concrete case: uint8 codes with zero point 60 to uint4 with zero point 7. -/
example := C113_recode (c := Ex.c1) (c' := Ex.c2) (x := Ex.codes) (dt := .uint8) (dt' := .uint4) (n := 70) (o := 1000) (o' := 3000) (s := Ex.tenth) (τ := f0) (z := 60) (z' := 7) (m0 := Ex.old)
    (m0' := Ex.old) (h := by wit) (hr := by wit) (hdt' := rfl) (h' := by wit) (h1 := by decide +kernel) (h2 := by decide +kernel) (hz := by decide) (hz' := by decide)

end

/-- One change of representation: the new type and zero point; context, address and old memory of the dequantize call; context, address, old memory of the quantize call; size of the
memory from which the new codes are read again. -/
structure Recoding where
  dt : DType
  z : ℤ
  c : Ctx
  o : Nat
  mem : Mem
  c' : Ctx
  o' : Nat
  mem' : Mem
  τ : F32
  sz : Nat

/-- After every schedule of all calls, one recoding after the other on codes of type `dt` with zero point `z` in `x`: `Q` holds of the last codes. -/
def Recode (n : Nat) (s : F32) : DType → ℤ → List Recoding → InBuf → (DType → InBuf → Prop) → Prop
  | dt, _, [], x, Q => Q dt x
  | dt, z, h :: l, x, Q =>
    Always NoFault (dequantize h.c x (bytes dt.bits n) dt h.o (4 * n) .f32 s z .set) (span h.o (4 * n)) h.mem (fun m =>
      Always NoFault (quantize h.c' ⟨4 * n, fun a => m (h.o + a)⟩ .f32 h.o' (bytes h.dt.bits n) h.dt s h.z .nearest h.τ) (span h.o' (bytes h.dt.bits n)) h.mem'
        (fun m' => Recode n s h.dt h.z l ⟨h.sz, fun a => m' (h.o' + a)⟩ Q))

/-- A legal recoding. -/
structure Recoding.Ok (h : Recoding) (n : Nat) : Prop where
  quant : h.dt.isQuant = true
  zp : 0 ≤ h.z ∧ h.z ≤ 2 ^ h.dt.bits - 1
  recv : Sizes n h.c.threads
  send : Sizes n h.c'.threads
  size : bytes h.dt.bits n ≤ h.sz
  rd : Readable h.dt .f32 n h.sz

/-- What a sequence of recodings does to the distance `k` of a code from its zero point: it is clamped to the distances of every type on the way. -/
def distAll (k : ℤ) (l : List Recoding) : ℤ := l.foldl (fun k h => sat h.dt.bits (k + h.z) - h.z) k

/-- The zero point after a sequence of recodings. -/
def lastZ (z : ℤ) (l : List Recoding) : ℤ := l.foldl (fun _ h => h.z) z

theorem Recode.mono {n : Nat} {s : F32} {l : List Recoding} : ∀ {dt : DType} {z : ℤ} {x : InBuf} {Q Q' : DType → InBuf → Prop}, (∀ f y, Q f y → Q' f y) → Recode n s dt z l x Q →
    Recode n s dt z l x Q' := by
  induction l with
  | nil => exact fun h hq => h _ _ hq
  | cons g l ih =>
    intro dt z x Q Q' hQ hc
    exact Always.mono hc (fun _ h => h) (fun _ hm => Always.mono hm (fun _ h => h) (fun _ hm' => ih hQ hm'))

/-- C113, any number of recodings on one scale: the distance of every code from its zero point is clamped to the range of each type on the way and otherwise unchanged. -/
theorem C113_recodings (l : List Recoding) {n : Nat} {s : F32} {dt : DType} {z : ℤ} {x : InBuf} (h1 : 1 / 2 ^ 126 ≤ s.toRat) (h2 : s.toRat ≤ 2 ^ 119) (hdt : dt.isQuant = true)
    (hx : bytes dt.bits n ≤ x.size) (hr : Readable dt .f32 n x.size) (hz : 0 ≤ z ∧ z ≤ 2 ^ dt.bits - 1) (h : ∀ h ∈ l, h.Ok n) :
    Recode n s dt z l x (fun dt' y => ∀ i, i < n → (code dt'.bits y.data 0 i : ℤ) = distAll (code dt.bits x.data 0 i - z) l + lastZ z l) := by
  induction l generalizing dt z x with
  | nil =>
    intro i hi
    show _ = (code dt.bits x.data 0 i : ℤ) - z + z
    ring
  | cons g l ih =>
    have hk := h g (List.mem_cons_self ..)
    have hQ := qmax_bounds hk.quant
    refine (C113_recode (c' := g.c') (o' := g.o') (m0' := g.mem') (τ := g.τ) ⟨hdt, rfl, hx, hk.recv⟩ hr hk.quant hk.send h1 h2 hz (z' := g.z) ?_).mono (fun _ h => h)
      (fun m hm => hm.mono (fun _ h => h) (fun m' hm' => ?_))
    · have := hk.zp
      rw [abs_of_nonneg this.1]; norm_num; omega
    · refine Recode.mono (fun dt' y hy i hi => ?_) (ih (x := ⟨g.sz, fun a => m' (g.o' + a)⟩) hk.quant hk.size hk.rd hk.zp (fun k hk => h k (List.mem_cons_of_mem _ hk)))
      have e : code g.dt.bits (fun a => m' (g.o' + a)) 0 i = code g.dt.bits m' g.o' i := code_shift _ _ _ _
      rw [hy i hi, e, hm' i hi]
      rfl

/-- Codes whose distance from the zero point every type can represent survive any sequence of recodings. -/
theorem distAll_id {k : ℤ} {l : List Recoding} (h : ∀ h ∈ l, 0 ≤ k + h.z ∧ k + h.z ≤ 2 ^ h.dt.bits - 1) : distAll k l = k := by
  induction l with
  | nil => rfl
  | cons g l ih =>
    have := h g (List.mem_cons_self ..)
    have e : sat g.dt.bits (k + g.z) - g.z = k := by unfold sat; omega
    show distAll (sat g.dt.bits (k + g.z) - g.z) l = k
    rw [e]
    exact ih (fun k hk => h k (List.mem_cons_of_mem _ hk))

/-- C113. Widening and narrowing back: if every type on the way can represent the distance of each code from its zero point, the recoded values are the same: `code - zero point` is
unchanged. -/
theorem C113_lossless (l : List Recoding) {n : Nat} {s : F32} {dt : DType} {z : ℤ} {x : InBuf} (h1 : 1 / 2 ^ 126 ≤ s.toRat) (h2 : s.toRat ≤ 2 ^ 119) (hdt : dt.isQuant = true)
    (hx : bytes dt.bits n ≤ x.size) (hr : Readable dt .f32 n x.size) (hz : 0 ≤ z ∧ z ≤ 2 ^ dt.bits - 1) (h : ∀ h ∈ l, h.Ok n)
    (hfit : ∀ h ∈ l, ∀ i, i < n → 0 ≤ (code dt.bits x.data 0 i : ℤ) - z + h.z ∧ (code dt.bits x.data 0 i : ℤ) - z + h.z ≤ 2 ^ h.dt.bits - 1) :
    Recode n s dt z l x (fun dt' y => ∀ i, i < n → (code dt'.bits y.data 0 i : ℤ) - lastZ z l = code dt.bits x.data 0 i - z) := by
  have key := C113_recodings l h1 h2 hdt hx hr hz h
  refine Recode.mono (fun dt' y hy i hi => ?_) key
  rw [hy i hi, distAll_id (fun g hg => hfit g hg i hi)]
  ring

/-- uint2 codes with zero point 2 to uint8 with zero point 100, to uint4 with zero point 7, and back. -/
def exRecodings : List Recoding :=
  [⟨.uint8, 100, ⟨.avx2, 3, .none⟩, 64, fun _ => 0, ⟨.portable, 2, .none⟩, 2000, fun _ => 7, f0, 70⟩,
   ⟨.uint4, 7, ⟨.avx512f, 3, .none⟩, 64, fun _ => 0, ⟨.neon, 2, .none⟩, 2000, fun _ => 7, f0, 35⟩,
   ⟨.uint2, 2, ⟨.sse42, 1, .none⟩, 64, fun _ => 0, ⟨.avx512bf16, 2, .none⟩, 2000, fun _ => 7, f0, 18⟩]

theorem exRecodings_ok : ∀ h ∈ exRecodings, h.Ok 70 := by
  intro p hp
  simp only [exRecodings, List.mem_cons, List.not_mem_nil, or_false] at hp
  rcases hp with rfl | rfl | rfl
  · exact ⟨rfl, by decide, sz 70 3, sz 70 2, by decide, (fun h => by cases h)⟩
  · exact ⟨rfl, by decide, sz 70 3, sz 70 2, by decide, (fun h => by cases h)⟩
  · exact ⟨rfl, by decide, sz 70 1, sz 70 2, by decide, (fun _ _ _ h => absurd h (by decide))⟩

/-- `C113_recodings` applied to a concrete case: uint8 codes through uint8, uint4 and uint2. -/
example := C113_recodings exRecodings (n := 70) (s := Ex.tenth) (dt := .uint8) (z := 60) (x := Ex.codes) (h1 := by decide +kernel) (h2 := by decide +kernel) (hdt := rfl)
  (hx := by decide +kernel) (hr := fun h => by cases h) (hz := by decide) (h := exRecodings_ok)

/-- `C113_lossless` applied to a concrete case: uint2 codes through uint8, uint4 and back to uint2. -/
example := C113_lossless exRecodings (n := 70) (s := Ex.tenth) (dt := .uint2) (z := 2) (x := Ex.codes) (h1 := by decide +kernel) (h2 := by decide +kernel) (hdt := rfl)
  (hx := by decide +kernel) (hr := fun _ _ _ h => absurd h (by decide)) (hz := by decide) (h := exRecodings_ok)
  (hfit := fun h hh i hi => by
    have := code_le (dt := .uint2) Ex.codes.data 0 i
    have hb : code DType.uint2.bits Ex.codes.data 0 i ≤ 3 := this
    generalize code DType.uint2.bits Ex.codes.data 0 i = q at hb
    simp only [exRecodings, List.mem_cons, List.not_mem_nil, or_false] at hh
    rcases hh with rfl | rfl | rfl
    · show 0 ≤ (q:ℤ) - 2 + 100 ∧ (q:ℤ) - 2 + 100 ≤ 2 ^ 8 - 1
      omega
    · show 0 ≤ (q:ℤ) - 2 + 7 ∧ (q:ℤ) - 2 + 7 ≤ 2 ^ 4 - 1
      omega
    · show 0 ≤ (q:ℤ) - 2 + 2 ∧ (q:ℤ) - 2 + 2 ≤ 2 ^ 2 - 1
      omega)

end Verif.Props
